import Verif.Model.Optics
import Verif.Proofs.Matrix
import Verif.Proofs.KMode
import Verif.Spec.Cluster
set_option linter.unusedSectionVars false
set_option linter.unusedSimpArgs false
/-
C83: the k-means functions that call a library turn labels into maps of rows; the ones on datasets lose rows.
-/
namespace Gospn
open Spec GoFloat
variable {F : Type} [GoFloat F]

/-- `G` holds, under each key, the last row that has the label `c` and this key. -/
def Spec.HoldsLast {β : Type} (key : Nat → Int) (rows : List (List β)) (labels : List Int) (c : Nat) (G : Int → Option (List β)) : Prop :=
  ∀ z row, G z = some row ↔ ∃ i, labels[i]? = some (c : Int) ∧ key i = z ∧ rows[i]? = some row ∧ ∀ j, i < j → labels[j]? = some (c : Int) → key j ≠ z

/-- `G` holds the rows with the label `c`, under their numbers. -/
def Spec.HoldsLabel {β : Type} (rows : List (List β)) (labels : List Int) (c : Nat) (G : Int → Option (List β)) : Prop :=
  ∀ z row, G z = some row ↔ ∃ i : Nat, z = i ∧ labels[i]? = some (c : Int) ∧ rows[i]? = some row

/-- Every row has one of the `k` labels. -/
def Spec.LabelsOf (k : Nat) (n : Nat) (labels : List Int) : Prop := labels.length = n ∧ ∀ c ∈ labels, 0 ≤ c ∧ c < k

theorem storeRows_spec {α β : Type} (conv : List α → List β) (k : Nat) (D : List (List α)) (sc : Option VarSet) (C : List Int) (h : LabelsOf k D.length C) :
    ∃ Gs, storeRows conv k D sc C = some Gs ∧ Gs.length = k ∧
      ∀ c G, Gs[c]? = some G → HoldsLast (fun i => sc.elim (i : Int) fun s => s.get i) (D.map conv) C c G := by
  obtain ⟨hlen, hlab⟩ := h
  unfold storeRows
  rw [if_neg (by omega), Int.toNat_natCast]
  generalize hkey : (fun i : Nat => (sc.elim (i : Int) fun s => s.get i : Int)) = key
  have hkey' : ∀ i : Nat, (sc.elim (i : Int) fun s => s.get i : Int) = key i := fun i => by rw [← hkey]
  simp only [hkey']
  have main : ∀ (suf pre : List Int), C = pre ++ suf → ∀ G0 : List (Int → Option (List β)), G0.length = k →
      (∀ c G, G0[c]? = some G → HoldsLast key (D.map conv) pre c G) →
      ∃ Gs, (suf.zipIdx pre.length).foldlM (fun (G : List (Int → Option (List β))) (x : Int × Nat) => (D[x.2]?).bind fun J => (goIdx G x.1).bind fun g =>
        goSet G x.1 fun z => if z = key x.2 then some (conv J) else g z) G0 = some Gs ∧ Gs.length = k ∧
        ∀ c G, Gs[c]? = some G → HoldsLast key (D.map conv) C c G := by
    intro suf
    induction suf with
    | nil =>
      intro pre hp G0 hG hinv
      rw [List.append_nil] at hp
      subst hp
      exact ⟨G0, rfl, hG, hinv⟩
    | cons l suf ih =>
      intro pre hp G0 hG hinv
      have hl := hlab l (by rw [hp]; simp)
      have hi : pre.length < D.length := by rw [← hlen, hp]; simp
      have hlk : l.toNat < G0.length := by omega
      obtain ⟨g, hg⟩ := goIdx_of_lt (l := G0) hl.1 (by omega)
      have hg' : G0[l.toNat]? = some g := by
        unfold goIdx at hg
        rw [if_neg (by omega)] at hg
        exact hg
      rw [List.zipIdx_cons, List.foldlM_cons]
      simp only [List.getElem?_eq_getElem hi, Option.bind_some, hg, Option.bind_eq_bind]
      rw [goSet_of_lt hl.1 (by omega), Option.bind_some]
      have := ih (pre ++ [l]) (by rw [hp]; simp) (G0.set l.toNat fun z => if z = key pre.length then some (conv D[pre.length]) else g z) (by simpa using hG) ?_
      · simpa using this
      intro c G hcG
      have hrowP : (D.map conv)[pre.length]? = some (conv D[pre.length]) := by simp [List.getElem?_eq_getElem hi]
      by_cases hc : c = l.toNat
      · subst hc
        rw [List.getElem?_set_self hlk] at hcG
        cases hcG
        have hcast : ((l.toNat : Nat) : Int) = l := by omega
        intro z row
        have hold := hinv _ g hg' z row
        beta_reduce
        have hlast : (pre ++ [l])[pre.length]? = some l := by simp
        by_cases hz : z = key pre.length
        · rw [if_pos hz]
          constructor
          · intro h
            cases h
            refine ⟨pre.length, by rw [hcast]; exact hlast, hz.symm, hrowP, ?_⟩
            intro j hj hlj
            rw [List.getElem?_eq_none (by simp; omega)] at hlj
            cases hlj
          · rintro ⟨i, h1, h2, h3, h4⟩
            have hile : i < (pre ++ [l]).length := (List.getElem?_eq_some_iff.1 h1).1
            rcases Nat.lt_or_ge i pre.length with hlt | hge
            · exact absurd hz.symm (h4 _ hlt (by rw [hcast]; exact hlast))
            · have : i = pre.length := by simp at hile; omega
              subst this
              rw [hrowP] at h3
              exact h3
        · rw [if_neg hz, hold]
          constructor
          · rintro ⟨i, h1, h2, h3, h4⟩
            have hlt : i < pre.length := (List.getElem?_eq_some_iff.1 h1).1
            refine ⟨i, by rw [List.getElem?_append_left hlt]; exact h1, h2, h3, ?_⟩
            intro j hj hlj
            have hjle : j < (pre ++ [l]).length := (List.getElem?_eq_some_iff.1 hlj).1
            rcases Nat.lt_or_ge j pre.length with hjlt | hjge
            · exact h4 j hj (by rw [List.getElem?_append_left hjlt] at hlj; exact hlj)
            · have : j = pre.length := by simp at hjle; omega
              subst this
              exact fun e => hz e.symm
          · rintro ⟨i, h1, h2, h3, h4⟩
            have hile : i < (pre ++ [l]).length := (List.getElem?_eq_some_iff.1 h1).1
            have hlt : i < pre.length := by
              rcases Nat.lt_or_ge i pre.length with h | h
              · exact h
              · exfalso
                have : i = pre.length := by simp at hile; omega
                subst this
                exact hz h2.symm
            refine ⟨i, by rw [List.getElem?_append_left hlt] at h1; exact h1, h2, h3, ?_⟩
            intro j hj hlj
            have hjlt : j < pre.length := (List.getElem?_eq_some_iff.1 hlj).1
            exact h4 j hj (by rw [List.getElem?_append_left hjlt]; exact hlj)
      · rw [List.getElem?_set_ne (by omega)] at hcG
        have hne : (l : Int) ≠ (c : Int) := by omega
        have hidx : ∀ i : Nat, (pre ++ [l])[i]? = some (c : Int) ↔ pre[i]? = some (c : Int) := by
          intro i
          rcases Nat.lt_trichotomy i pre.length with h | h | h
          · rw [List.getElem?_append_left h]
          · subst h; simp [hne]
          · rw [List.getElem?_eq_none (by simp; omega), List.getElem?_eq_none (by omega)]
        intro z row
        rw [hinv c G hcG z row]
        simp only [hidx]
  have := main C [] rfl (List.replicate k fun _ => none) (by simp) (by
    intro c G hG z row
    have : G = fun _ => none := List.eq_of_mem_replicate (List.mem_of_getElem? hG)
    subst this
    simp)
  simpa using this

theorem HoldsLast_number {β : Type} {rows : List (List β)} {labels : List Int} {c : Nat} {G : Int → Option (List β)}
    (h : HoldsLast (fun i => (i : Int)) rows labels c G) : HoldsLabel rows labels c G := by
  intro z row
  rw [h z row]
  constructor
  · rintro ⟨i, h1, h2, h3, _⟩; exact ⟨i, h2.symm, h1, h3⟩
  · rintro ⟨i, h1, h2, h3⟩
    exact ⟨i, h2, h1.symm, h3, fun j hj _ => by rw [h1]; beta_reduce; omega⟩

/-- `KMeans` returns, for each label, the rows with this label, under their numbers, if the library labels every row (and integers survive the way to `float64`
and back). Missing: that the library's labels are those of k-means (the library is outside the model), and `KMeansData` (`C83_data_loses_rows`). -/
theorem C83_kmeans_partial (assign : Int → List (List F) → Option (List Int)) (k : Nat) (data : List (List Int)) (labels : List Int)
    (hrt : ∀ row ∈ data, ∀ v ∈ row, toInt (ofInt v : F) = v) (hassign : assign k (data.map fun row => row.map ofInt) = some labels)
    (hl : LabelsOf k data.length labels) :
    ∃ Gs, kMeansLib assign k data = some Gs ∧ Gs.length = k ∧ ∀ c G, Gs[c]? = some G → HoldsLabel data labels c G := by
  unfold kMeansLib kMeansMuesli
  simp only [hassign, Option.bind_some]
  obtain ⟨Gs, h1, h2, h3⟩ := storeRows_spec (fun row => row.map (toInt : F → Int)) k (data.map fun row => row.map ofInt) none labels (by simpa using hl)
  refine ⟨Gs, h1, h2, fun c G hG => HoldsLast_number ?_⟩
  have := h3 c G hG
  rw [List.map_map] at this
  have e : data.map ((fun row => row.map (toInt : F → Int)) ∘ fun row => row.map ofInt) = data := by
    conv_rhs => rw [← List.map_id data]
    apply List.map_congr_left
    intro row hrow
    simp only [Function.comp_apply, List.map_map, id]
    conv_rhs => rw [← List.map_id row]
    apply List.map_congr_left
    intro v hv
    exact hrt row hrow v hv
  rw [e] at this
  exact this

/-- `KMeansF` does the same on rows of floats, bit by bit; its argument `sc` is ignored. -/
theorem C83_kmeansF (assign : Int → List (List F) → Option (List Int)) (k : Nat) (data : List (List F)) (labels : List Int) (sc : Option VarSet)
    (hassign : assign k data = some labels) (hl : LabelsOf k data.length labels) :
    ∃ Gs, kMeansF assign k data sc = some Gs ∧ Gs.length = k ∧ ∀ c G, Gs[c]? = some G → HoldsLabel data labels c G := by
  unfold kMeansF kMeansMuesliF
  simp only [hassign, Option.bind_some]
  obtain ⟨Gs, h1, h2, h3⟩ := storeRows_spec id k data none labels hl
  refine ⟨Gs, h1, h2, fun c G hG => HoldsLast_number ?_⟩
  have := h3 c G hG
  rw [List.map_id] at this
  exact this

/-- An error of the library panics. -/
theorem C83_library_error (assign : Int → List (List F) → Option (List Int)) (k : Int) (data : List (List Int)) (hassign : assign k (data.map fun row => row.map ofInt) = none) :
    kMeansLib assign k data = none := by
  unfold kMeansLib kMeansMuesli; simp only [hassign]; rfl

theorem columnVars_getD (cols : List Int) (i : Nat) : (columnVars cols).get i = (cols[i]?).getD 0 := by
  unfold columnVars VarSet.get; simp

/-- `KMeansFData`: every key is 0 or a variable of the dataset, whatever the number of rows. -/
theorem C83_data_keysF (assign : Int → List (List F) → Option (List Int)) (ord : MapOrder) (k : Nat) (D : List VarSet) (I0 : VarSet) (labels : List Int)
    (h0 : D[0]? = some I0) (ho : OrdersOf ord D) (hs : SameVars D) (hassign : ∀ M : List (List F), M.length = D.length → assign k M = some labels)
    (hl : LabelsOf k D.length labels) :
    ∃ Gs, kMeansFData assign ord k D = some Gs ∧ Gs.length = k ∧ ∀ G ∈ Gs, ∀ z, G z ≠ none → z = 0 ∨ (I0 z).isSome := by
  unfold kMeansFData
  rw [dataToMatrix_spec ofInt (ofInt 0) h0 ho hs, Option.bind_some]
  unfold kMeansMuesliF
  simp only
  rw [hassign _ (by simp), Option.bind_some]
  obtain ⟨Gs, h1, h2, h3⟩ := storeRows_spec id k (D.map fun I => (ord 0 I0).map fun c => (ofInt (I.get c) : F)) (some (columnVars (ord 0 I0))) labels (by simpa using hl)
  refine ⟨Gs, h1, h2, ?_⟩
  intro G hG z hz
  obtain ⟨c, hc⟩ := List.getElem?_of_mem hG
  obtain ⟨row, hrow⟩ := Option.ne_none_iff_exists'.1 hz
  obtain ⟨i, -, hkey, -, -⟩ := (h3 c G hc z row).1 hrow
  simp only [Option.elim, columnVars_getD] at hkey
  cases hi : (ord 0 I0)[i]? with
  | none => left; simpa [hi] using hkey.symm
  | some v =>
    right
    have hv : v = z := by simpa [hi] using hkey
    rw [← hv]
    exact ((ho 0 I0 (List.mem_of_getElem? h0)).2 v).1 (List.mem_of_getElem? hi)

/-- `KMeansData` likewise. -/
theorem C83_data_keys (assign : Int → List (List F) → Option (List Int)) (ord : MapOrder) (k : Nat) (D : List VarSet) (I0 : VarSet) (labels : List Int)
    (h0 : D[0]? = some I0) (ho : OrdersOf ord D) (hs : SameVars D) (hassign : ∀ M : List (List F), M.length = D.length → assign k M = some labels)
    (hl : LabelsOf k D.length labels) :
    ∃ Gs, kMeansData assign ord k D = some Gs ∧ Gs.length = k ∧ ∀ G ∈ Gs, ∀ z, G z ≠ none → z = 0 ∨ (I0 z).isSome := by
  unfold kMeansData
  rw [dataToMatrix_spec id 0 h0 ho hs, Option.bind_some]
  unfold kMeansMuesli
  simp only
  rw [hassign _ (by simp), Option.bind_some]
  obtain ⟨Gs, h1, h2, h3⟩ := storeRows_spec (fun row => row.map (toInt : F → Int)) k
    ((D.map fun I => (ord 0 I0).map fun c => id (I.get c)).map fun row => row.map (ofInt : Int → F)) (some (columnVars (ord 0 I0))) labels (by simpa using hl)
  refine ⟨Gs, h1, h2, ?_⟩
  intro G hG z hz
  obtain ⟨c, hc⟩ := List.getElem?_of_mem hG
  obtain ⟨row, hrow⟩ := Option.ne_none_iff_exists'.1 hz
  obtain ⟨i, -, hkey, -, -⟩ := (h3 c G hc z row).1 hrow
  simp only [Option.elim, columnVars_getD] at hkey
  cases hi : (ord 0 I0)[i]? with
  | none => left; simpa [hi] using hkey.symm
  | some v =>
    right
    have hv : v = z := by simpa [hi] using hkey
    rw [← hv]
    exact ((ho 0 I0 (List.mem_of_getElem? h0)).2 v).1 (List.mem_of_getElem? hi)

/-- So rows are lost: with `n ≥ 2` rows over the variable 0 alone, each cluster holds at most one row, although some label has two rows as soon as `k < n`. -/
theorem C83_data_loses_rows (assign : Int → List (List F) → Option (List Int)) (ord : MapOrder) (k : Nat) (D : List VarSet) (labels : List Int)
    (hne : D ≠ []) (hvar : ∀ x ∈ D, ∀ z, (x z).isSome ↔ z = 0) (ho : OrdersOf ord D)
    (hassign : ∀ M : List (List F), M.length = D.length → assign k M = some labels) (hl : LabelsOf k D.length labels) :
    ∃ Gs, kMeansData assign ord k D = some Gs ∧ Gs.length = k ∧ ∀ G ∈ Gs, ∀ z, z ≠ 0 → G z = none := by
  obtain ⟨I0, D', rfl⟩ := List.exists_cons_of_ne_nil hne
  have hs : SameVars (I0 :: D') := by
    intro x hx y hy z
    rw [Bool.eq_iff_iff, hvar x hx z, hvar y hy z]
  obtain ⟨Gs, h1, h2, h3⟩ := C83_data_keys assign ord k (I0 :: D') I0 labels rfl ho hs hassign hl
  refine ⟨Gs, h1, h2, fun G hG z hz => ?_⟩
  by_contra hn
  rcases h3 G hG z hn with h | h
  · exact hz h
  · exact hz ((hvar I0 (by simp) z).1 h)

/-- Three rows over the variable 0, with the order that lists it: a library that gives all of them label 0 meets the hypotheses. -/
example : ∃ (D : List VarSet) (ord : MapOrder) (assign : Int → List (List XR) → Option (List Int)), D.length = 3 ∧ D ≠ [] ∧ (∀ x ∈ D, ∀ z, (x z).isSome ↔ z = 0) ∧
    OrdersOf ord D ∧ (∀ M, M.length = D.length → assign (1 : Nat) M = some [0, 0, 0]) ∧ LabelsOf 1 D.length [0, 0, 0] := by
  refine ⟨[VarSet.empty.set 0 4, VarSet.empty.set 0 5, VarSet.empty.set 0 6], fun _ _ => [0], fun _ _ => some [0, 0, 0], rfl, by simp, ?_, ?_, fun _ _ => rfl, ?_⟩
  · intro x hx z
    simp only [List.mem_cons, List.not_mem_nil, or_false] at hx
    rcases hx with rfl | rfl | rfl <;> (by_cases hz : z = 0 <;> simp [VarSet.set, VarSet.empty, hz])
  · intro t x hx
    refine ⟨by simp, fun z => ?_⟩
    simp only [List.mem_cons, List.not_mem_nil, or_false] at hx
    rcases hx with rfl | rfl | rfl <;> (by_cases hz : z = 0 <;> simp [VarSet.set, VarSet.empty, hz])
  · exact ⟨rfl, by simp⟩

/-- Labels `[0, 1, 0]` for three rows, with exact reals. -/
example : ∃ (data : List (List Int)) (assign : Int → List (List XR) → Option (List Int)), (∀ row ∈ data, ∀ v ∈ row, toInt (ofInt v : XR) = v) ∧
    assign (2 : Nat) (data.map fun row => row.map ofInt) = some [0, 1, 0] ∧ LabelsOf 2 data.length [0, 1, 0] := by
  refine ⟨[[1], [7], [2]], fun _ _ => some [0, 1, 0], ?_, rfl, rfl, by simp⟩
  intro row _ v _
  simp [GoFloat.toInt, GoFloat.ofInt, XR.toInt]

end Gospn
