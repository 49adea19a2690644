/-
Theorems about datasets as matrices: C39 and C40.
-/
import Verif.Proofs.Matrix
import Verif.Proofs.Log

set_option linter.unusedSectionVars false
set_option linter.unusedSimpArgs false

namespace Gospn
open Spec GoFloat

/-- C40: the columns are the variables, each once, and row `i`, column `u` holds the value of variable `S[u]` in instance `i`. -/
theorem C40_matrix {α : Type} (conv : Int → α) (zero : α) {ord : MapOrder} {D : List VarSet} (hne : D ≠ []) (ho : OrdersOf ord D) (hs : SameVars D) :
    ∃ cols M, dataToMatrix conv zero ord D = some (M, columnVars cols) ∧ (∀ x ∈ D, Enumerates x cols) ∧
      M.length = D.length ∧ (∀ r ∈ M, r.length = cols.length) ∧
      ∀ (i u : Nat) (x : VarSet) (k : Int), D[i]? = some x → cols[u]? = some k → ∃ v, x k = some v ∧ (M[i]?).bind (·[u]?) = some (conv v) := by
  obtain ⟨I0, D', rfl⟩ := List.exists_cons_of_ne_nil hne
  have hen := ho 0 I0 (by simp)
  have hall : ∀ x ∈ I0 :: D', Enumerates x (ord 0 I0) := by
    intro x hx
    refine ⟨hen.1, fun k => ?_⟩
    rw [hen.2 k, hs I0 (by simp) x hx]
  refine ⟨ord 0 I0, _, dataToMatrix_spec conv zero (I0 := I0) rfl ho hs, hall, by simp, ?_, ?_⟩
  · intro r hr
    obtain ⟨x, _, rfl⟩ := List.mem_map.1 hr
    simp
  · intro i u x k hi hu
    have hx := List.mem_of_getElem? hi
    obtain ⟨v, hv⟩ := Option.isSome_iff_exists.1 (((hall x hx).2 k).1 (List.mem_of_getElem? hu))
    refine ⟨v, hv, ?_⟩
    rw [List.getElem?_map, hi]
    simp [hu, VarSet.get, hv]

/-- For complete datasets column `k` is variable `k`. -/
theorem completeDataToMatrix_spec {α : Type} (conv : Int → α) (zero : α) {ord : MapOrder} {D : List VarSet} (m : Nat) (hne : D ≠ []) (ho : OrdersOf ord D)
    (hc : CompleteVars m D) : completeDataToMatrix conv zero ord D = some (D.map fun I => (List.range m).map fun (k : Nat) => conv (I.get (k : Int))) := by
  obtain ⟨I0, D', rfl⟩ := List.exists_cons_of_ne_nil hne
  have hlen : (ord 0 I0).length = m := by
    have hen := ho 0 I0 (by simp)
    have : (ord 0 I0).Perm ((List.range m).map fun (k : Nat) => (k : Int)) := by
      rw [List.perm_ext_iff_of_nodup hen.1 (List.nodup_range.map fun a b h => by simpa using h)]
      intro k
      rw [hen.2 k, hc I0 (by simp) k]
      simp only [List.mem_map, List.mem_range]
      constructor
      · rintro ⟨h1, h2⟩
        exact ⟨k.toNat, by omega, by omega⟩
      · rintro ⟨a, h1, rfl⟩
        omega
    simpa using this.length_eq
  unfold completeDataToMatrix
  simp only [List.getElem?_cons_zero, Option.bind_some, hlen]
  have hrow : ∀ (x : VarSet) (ks : List Int) (f : Nat → α), (∀ k ∈ ks, (0 ≤ k ∧ k < m) ∧ (x k).isSome) →
      ks.foldlM (fun row k => (x k).bind fun v => goSet row k (conv v)) ((List.range m).map f) =
        some ((List.range m).map fun (k : Nat) => if (k : Int) ∈ ks then conv (x.get (k : Int)) else f k) := by
    intro x ks
    induction ks with
    | nil => intro f _; simp
    | cons k ks ih =>
      intro f hk
      obtain ⟨⟨h0, h1⟩, h2⟩ := hk k (by simp)
      obtain ⟨v, hv⟩ := Option.isSome_iff_exists.1 h2
      obtain ⟨a, rfl⟩ := Int.eq_ofNat_of_zero_le h0
      rw [List.foldlM_cons]
      have hv' : x (a : Int) = some v := hv
      simp only [hv', Option.bind_some]
      rw [goSet_nat _ _ _ (by simpa using h1), range_map_set]
      simp only [bind, Option.bind_some]
      refine (ih _ fun z hz => hk z (by simp [hz])).trans ?_
      congr 1
      apply List.map_congr_left
      intro b _
      by_cases hb : b = a
      · subst hb; simp [VarSet.get, hv']
      · have : ¬ ((b : Int) = (a : Int)) := by omega
        simp [hb, this]
  have hall : ∀ (l : List VarSet) (i : Nat), (∀ x ∈ l, x ∈ I0 :: D') →
      (l.zipIdx i).mapM (fun (x : VarSet × Nat) => (ord x.2 x.1).foldlM (fun row k => (x.1 k).bind fun v => goSet row k (conv v)) (List.replicate m zero)) =
        some (l.map fun I => (List.range m).map fun (k : Nat) => conv (I.get (k : Int))) := by
    intro l
    induction l with
    | nil => intro i _; rfl
    | cons x l ih =>
      intro i hl
      have hx := hl x (by simp)
      have hen := ho i x hx
      have er : List.replicate m zero = (List.range m).map fun _ => zero := by simp
      rw [List.zipIdx_cons, List.mapM_cons, ih (i + 1) fun y hy => hl y (by simp [hy])]
      simp only []
      rw [er, hrow x (ord i x) (fun _ => zero) fun k hk => ⟨(hc x hx k).1 ((hen.2 k).1 hk), (hen.2 k).1 hk⟩]
      simp only [bind, Option.bind_some, List.map_cons, pure]
      congr 2
      apply List.map_congr_left
      intro k hk
      rw [if_pos]
      rw [hen.2, hc x hx]
      have := List.mem_range.1 hk
      omega
  exact hall (I0 :: D') 0 fun _ h => h

/-- C40 for complete datasets: the values by number of the variable. -/
theorem C40_complete {α : Type} (conv : Int → α) (zero : α) {ord : MapOrder} {D : List VarSet} (m : Nat) (hne : D ≠ []) (ho : OrdersOf ord D) (hc : CompleteVars m D) :
    ∃ M, completeDataToMatrix conv zero ord D = some M ∧ M.length = D.length ∧
      ∀ (i k : Nat) (x : VarSet), D[i]? = some x → k < m → ∃ v, x (k : Int) = some v ∧ (M[i]?).bind (·[k]?) = some (conv v) := by
  refine ⟨_, completeDataToMatrix_spec conv zero m hne ho hc, by simp, ?_⟩
  intro i k x hi hk
  obtain ⟨v, hv⟩ := Option.isSome_iff_exists.1 ((hc x (List.mem_of_getElem? hi) k).2 (by omega))
  refine ⟨v, hv, ?_⟩
  rw [List.getElem?_map, hi]
  simp [hk, VarSet.get, hv]

/-- C40: `MatrixToData` undoes `CompleteDataToMatrix`. -/
theorem C40_roundtrip {ord : MapOrder} {D : List VarSet} (m : Nat) (hne : D ≠ []) (ho : OrdersOf ord D) (hc : CompleteVars m D) :
    (completeDataToMatrix id 0 ord D).map matrixToData = some D := by
  rw [completeDataToMatrix_spec id 0 m hne ho hc, Option.map_some]
  congr 1
  unfold matrixToData
  rw [List.map_map]
  conv_rhs => rw [← List.map_id D]
  apply List.map_congr_left
  intro x hx
  have := rowToMap ((List.range m).map fun (k : Nat) => (k : Int)) (fun k => x.get k) (fun j => (j : Int)) id (by
    intro j k h
    rw [List.getElem?_map] at h
    rcases Nat.lt_or_ge j m with hj | hj
    · rw [List.getElem?_range hj] at h
      simpa using h
    · rw [List.getElem?_eq_none (by simpa using hj)] at h
      simp at h)
  rw [List.map_map] at this
  simp only [id, Function.comp_def] at this ⊢
  rw [this]
  funext z
  have hz := hc x hx z
  have hmem : z ∈ (List.range m).map (fun (k : Nat) => (k : Int)) ↔ 0 ≤ z ∧ z < m := by
    simp only [List.mem_map, List.mem_range]
    constructor
    · rintro ⟨a, h1, rfl⟩; omega
    · rintro ⟨h1, h2⟩; exact ⟨z.toNat, by omega, by omega⟩
  cases hxz : x z with
  | none => rw [if_neg]; rw [hmem, ← hz, hxz]; simp
  | some v => rw [if_pos (by rw [hmem, ← hz, hxz]; rfl)]; simp [VarSet.get, hxz]

variable {F : Type} [GoFloat F]

/-- Grouping by assigned numbers loses nothing. -/
theorem groups_perm {α : Type} (k : Nat) : ∀ (l : List (α × Int)), (∀ x ∈ l, 0 ≤ x.2 ∧ x.2 < k) →
    ((List.range k).map fun (a : Nat) => (l.filter fun x => x.2 = (a : Int)).map Prod.fst).flatten.Perm (l.map Prod.fst) := by
  intro l
  induction l with
  | nil => intro _; simp
  | cons x l ih =>
    intro hl
    obtain ⟨h0, h1⟩ := hl x (by simp)
    obtain ⟨b, hb⟩ := Int.eq_ofNat_of_zero_le h0
    have e1 : ((List.range k).map fun (a : Nat) => ((x :: l).filter fun x => x.2 = (a : Int)).map Prod.fst) =
        (List.range k).map fun (a : Nat) => (if b = a then [x.1] else []) ++ (l.filter fun x => x.2 = (a : Int)).map Prod.fst := by
      apply List.map_congr_left
      intro a _
      by_cases hab : b = a
      · subst hab
        have : x.2 = (b : Int) := hb
        simp [this]
      · have : ¬ x.2 = (a : Int) := by rw [hb]; simp; omega
        simp [this, hab]
    rw [e1, ← List.flatMap_def]
    refine (flatMap_append_perm' _ _ _).trans ?_
    rw [flatMap_single _ _ _ (by omega), List.map_cons]
    simpa [List.flatMap_def] using ih fun y hy => hl y (by simp [hy])

/-- C39: whatever assignment `G` of rows to groups is used, group `a` of the result consists, in order, of the instances assigned to it, with their variables and values,
and the groups together are the dataset.
`hr` says that converting the values to float64 and back does not change them, as for all values up to 2^53. -/
theorem C39_groups {ord : MapOrder} {D : List VarSet} {k : Nat} {G : List Int} (hne : D ≠ []) (ho : OrdersOf ord D) (hs : SameVars D)
    (hr : ∀ x ∈ D, ∀ c v, x c = some v → toInt (ofInt v : F) = v) (hG : G.length = D.length) (hk : ∀ g ∈ G, 0 ≤ g ∧ g < k) :
    ∃ M Sc C, dataToMatrix (ofInt : Int → F) (ofInt 0) ord D = some (M, Sc) ∧ guessToData k G M Sc = some C ∧ C.length = k ∧
      (∀ (a : Nat), a < k → C[a]? = some (((D.zip G).filter fun x => x.2 = (a : Int)).map Prod.fst)) ∧ C.flatten.Perm D := by
  obtain ⟨I0, D', rfl⟩ := List.exists_cons_of_ne_nil hne
  have hen := ho 0 I0 (by simp)
  have hall : ∀ x ∈ I0 :: D', Enumerates x (ord 0 I0) := by
    intro x hx
    refine ⟨hen.1, fun k => ?_⟩
    rw [hen.2 k, hs I0 (by simp) x hx]
  refine ⟨_, _, _, dataToMatrix_spec (ofInt : Int → F) (ofInt 0) (I0 := I0) rfl ho hs, guessToData_spec hall hr hG hk, by simp, ?_, ?_⟩
  · intro a hlt
    simp [hlt]
  · refine (groups_perm k ((I0 :: D').zip G) (by
      rintro ⟨a, g⟩ hx
      exact hk g (List.of_mem_zip hx).2)).trans ?_
    rw [List.map_fst_zip (by omega)]

/-- C39 for `KMeansDataI`: whatever the k-means library answers, as long as it assigns every row to one of `k` groups. -/
theorem C39_kmeans (assign : Int → List (List F) → Option (List Int)) {ord : MapOrder} {D : List VarSet} {k : Nat} (hne : D ≠ []) (ho : OrdersOf ord D) (hs : SameVars D)
    (hr : ∀ x ∈ D, ∀ c v, x c = some v → toInt (ofInt v : F) = v)
    (ha : ∀ M, M.length = D.length → ∃ G, assign k M = some G ∧ G.length = M.length ∧ ∀ g ∈ G, 0 ≤ g ∧ g < k) :
    ∃ (G : List Int) (C : List (List VarSet)), kMeansDataI assign ord k D = some C ∧ G.length = D.length ∧ C.length = k ∧
      (∀ (a : Nat), a < k → C[a]? = some (((D.zip G).filter fun x => x.2 = (a : Int)).map Prod.fst)) ∧ C.flatten.Perm D := by
  obtain ⟨cols, M, h1, _, h2, _⟩ := C40_matrix (ofInt : Int → F) (ofInt 0) hne ho hs
  obtain ⟨G, h3, h4, h5⟩ := ha M h2
  obtain ⟨M', Sc, C, g1, g2, g3, g4, g5⟩ := C39_groups (F := F) hne ho hs hr (h4.trans h2) h5
  rw [h1] at g1
  simp only [Option.some.injEq, Prod.mk.injEq] at g1
  obtain ⟨rfl, rfl⟩ := g1
  refine ⟨G, C, ?_, h4.trans h2, g3, g4, g5⟩
  unfold kMeansDataI
  rw [h1]
  simp only [Option.bind_some, h3]
  exact g2

/-! ### The hypotheses hold for four instances of three variables -/

/-- Four instances of the variables 2, 5 and 9. -/
def four : List VarSet := (List.range 4).map fun (i : Nat) => ((VarSet.empty.set 5 i).set 2 (i * i)).set 9 7

theorem four_orders : OrdersOf (fun t _ => if t = 0 then [9, 2, 5] else [2, 5, 9]) four := by
  intro t x hx
  obtain ⟨i, _, rfl⟩ := List.mem_map.1 hx
  refine ⟨by by_cases h : t = 0 <;> simp [h], fun k => ?_⟩
  by_cases h9 : k = 9 <;> by_cases h2 : k = 2 <;> by_cases h5 : k = 5 <;> by_cases h : t = 0 <;>
    simp [VarSet.set, VarSet.empty, h9, h2, h5, h]

theorem four_same : SameVars four := by
  intro x hx y hy k
  obtain ⟨i, _, rfl⟩ := List.mem_map.1 hx
  obtain ⟨j, _, rfl⟩ := List.mem_map.1 hy
  by_cases h9 : k = 9 <;> by_cases h2 : k = 2 <;> by_cases h5 : k = 5 <;> simp [VarSet.set, VarSet.empty, h9, h2, h5]

example : dataToMatrix id 0 (fun t _ => if t = 0 then [9, 2, 5] else [2, 5, 9]) four = some ([[7, 0, 0], [7, 1, 1], [7, 4, 2], [7, 9, 3]], columnVars [9, 2, 5]) := by
  rw [dataToMatrix_spec id 0 rfl four_orders four_same]
  rfl

noncomputable example : ∃ M Sc C, dataToMatrix (ofInt : Int → XR) (ofInt 0) (fun t _ => if t = 0 then [9, 2, 5] else [2, 5, 9]) four = some (M, Sc) ∧
    guessToData (2 : Nat) [1, 0, 0, 1] M Sc = some C ∧ C.flatten.Perm four := by
  obtain ⟨M, Sc, C, h1, h2, _, _, h3⟩ := C39_groups (F := XR) (k := 2) (G := [1, 0, 0, 1]) (by simp [four]) four_orders four_same
    (by intro x _ c v _; simp [XR.toInt]) rfl (by decide)
  exact ⟨M, Sc, C, h1, h2, h3⟩

/-- Two instances of the variables 0 and 1: a complete dataset. -/
example : (completeDataToMatrix id 0 (fun _ _ => [1, 0]) [(VarSet.empty.set 0 3).set 1 4, (VarSet.empty.set 0 5).set 1 6]).map matrixToData =
    some [(VarSet.empty.set 0 3).set 1 4, (VarSet.empty.set 0 5).set 1 6] := by
  refine C40_roundtrip 2 (by simp) ?_ ?_
  · intro t x hx
    simp only [List.mem_cons, List.not_mem_nil, or_false] at hx
    rcases hx with rfl | rfl <;>
    · refine ⟨by simp, fun k => ?_⟩
      by_cases h0 : k = 0 <;> by_cases h1 : k = 1 <;> simp [VarSet.set, VarSet.empty, h0, h1]
  · intro x hx k
    simp only [List.mem_cons, List.not_mem_nil, or_false] at hx
    rcases hx with rfl | rfl <;>
    · by_cases h0 : k = 0 <;> by_cases h1 : k = 1 <;> simp [VarSet.set, VarSet.empty, h0, h1] <;> omega

end Gospn
