/-
Lemmas about the conversion of datasets to matrices and back.
-/
import Verif.Model.Matrix
import Verif.Spec.Matrix
import Verif.Proofs.Data

set_option linter.unusedSectionVars false
set_option linter.unusedSimpArgs false

namespace Gospn
open Spec GoFloat

theorem map_set_idxOf {α : Type} (cols : List Int) (hn : cols.Nodup) (f : Int → α) (k : Int) (hk : k ∈ cols) (x : α) :
    (cols.map f).set (cols.idxOf k) x = cols.map fun z => if z = k then x else f z := by
  apply List.ext_getElem
  · simp
  · intro i hi hi'
    have hi2 : i < cols.length := by simpa using hi'
    rw [List.getElem_set]
    have hlt := List.idxOf_lt_length_of_mem hk
    by_cases h : cols.idxOf k = i
    · subst h
      simp
    · rw [if_neg h, List.getElem_map, List.getElem_map, if_neg]
      intro he
      apply h
      rw [← he]
      exact List.Nodup.idxOf_getElem hn i hi2

/-- The columns of variables: `Z`. -/
def ZOf (cols : List Int) : VarSet := fun k => if k ∈ cols then some (cols.idxOf k : Int) else none

theorem ZOf_append (cols : List Int) (k : Int) (hk : k ∉ cols) : ZOf (cols ++ [k]) = (ZOf cols).set k cols.length := by
  funext z
  unfold ZOf VarSet.set
  by_cases hz : z = k
  · subst hz
    simp [hk, List.idxOf_append]
  · by_cases hzc : z ∈ cols
    · simp [hz, hzc, List.idxOf_append]
    · simp [hz, hzc]

theorem columnVars_append (cols : List Int) (k : Int) : columnVars (cols ++ [k]) = (columnVars cols).set cols.length k := by
  funext z
  unfold columnVars VarSet.set
  by_cases hz : z = cols.length
  · subst hz; simp
  · by_cases h0 : 0 ≤ z
    · simp only [h0, if_true, hz, if_false]
      rcases Nat.lt_or_ge z.toNat cols.length with h | h
      · rw [List.getElem?_append_left h]
      · rw [List.getElem?_append_right h, List.getElem?_eq_none h, List.getElem?_eq_none (by simp; omega)]
    · simp [h0, hz]

theorem firstRow {α : Type} (conv : Int → α) (zero : α) (I : VarSet) (m : Nat) : ∀ (suf pre : List Int), (pre ++ suf).Nodup → (∀ k ∈ suf, (I k).isSome) →
    pre.length + suf.length = m →
    suf.foldlM (putColumn conv I) (pre.map (fun k => conv (I.get k)) ++ List.replicate suf.length zero, ZOf pre, columnVars pre, (pre.length : Int)) =
      some ((pre ++ suf).map (fun k => conv (I.get k)), ZOf (pre ++ suf), columnVars (pre ++ suf), (m : Int)) := by
  intro suf
  induction suf with
  | nil => intro pre _ _ hm; simp at hm ⊢; exact hm
  | cons k suf ih =>
    intro pre hn hs hm
    obtain ⟨v, hv⟩ := Option.isSome_iff_exists.1 (hs k (by simp))
    have hk : k ∉ pre := by
      intro hk
      exact (List.nodup_append.1 hn).2.2 k hk k (by simp) rfl
    have e1 : putColumn conv I (pre.map (fun k => conv (I.get k)) ++ List.replicate (k :: suf).length zero, ZOf pre, columnVars pre, (pre.length : Int)) k =
        some ((pre ++ [k]).map (fun k => conv (I.get k)) ++ List.replicate suf.length zero, ZOf (pre ++ [k]), columnVars (pre ++ [k]), ((pre ++ [k]).length : Int)) := by
      have hz : ZOf pre k = none := by simp [ZOf, hk]
      simp only [putColumn, hv, Option.bind_some, hz]
      rw [goSet_nat _ _ _ (by simp)]
      have hg : conv (I.get k) = conv v := by simp [VarSet.get, hv]
      simp only [Option.map_some, ZOf_append _ _ hk, columnVars_append]
      rw [List.set_append_right _ _ (by simp)]
      simp [List.replicate_succ, hg]
    rw [List.foldlM_cons, e1]
    have := ih (pre ++ [k]) (by simpa using hn) (fun z hz => hs z (by simp [hz])) (by simp at hm ⊢; omega)
    simpa using this

theorem laterRow {α : Type} (conv : Int → α) (I : VarSet) (cols : List Int) (hn : cols.Nodup) (m : Int) : ∀ (ks : List Int) (f : Int → α),
    (∀ k ∈ ks, k ∈ cols ∧ (I k).isSome) →
    ks.foldlM (putColumn conv I) (cols.map f, ZOf cols, columnVars cols, m) =
      some (cols.map (fun k => if k ∈ ks then conv (I.get k) else f k), ZOf cols, columnVars cols, m) := by
  intro ks
  induction ks with
  | nil => intro f _; simp
  | cons k ks ih =>
    intro f hs
    obtain ⟨hk, hk'⟩ := hs k (by simp)
    obtain ⟨v, hv⟩ := Option.isSome_iff_exists.1 hk'
    have hz : ZOf cols k = some (cols.idxOf k : Int) := by simp [ZOf, hk]
    have e1 : putColumn conv I (cols.map f, ZOf cols, columnVars cols, m) k = some (cols.map (fun z => if z = k then conv v else f z), ZOf cols, columnVars cols, m) := by
      simp only [putColumn, hv, Option.bind_some, hz]
      rw [goSet_nat _ _ _ (by simpa using List.idxOf_lt_length_of_mem hk), map_set_idxOf _ hn _ _ hk]
      rfl
    rw [List.foldlM_cons, e1]
    simp only [bind, Option.bind_some]
    refine (ih _ fun z hz => hs z (by simp [hz])).trans ?_
    congr 2
    apply List.map_congr_left
    intro z _
    by_cases hzk : z = k
    · subst hzk; simp [VarSet.get, hv]
    · simp [hzk]

/-- The matrix with these columns. -/
theorem dataToMatrix_spec {α : Type} (conv : Int → α) (zero : α) {ord : MapOrder} {D : List VarSet} {I0 : VarSet} (h0 : D[0]? = some I0) (ho : OrdersOf ord D)
    (hs : SameVars D) :
    dataToMatrix conv zero ord D = some (D.map (fun I => (ord 0 I0).map fun k => conv (I.get k)), columnVars (ord 0 I0)) := by
  have hI0 : I0 ∈ D := List.mem_of_getElem? h0
  have hen := ho 0 I0 hI0
  unfold dataToMatrix
  simp only [h0, Option.bind_some]
  set cols := ord 0 I0 with hcols
  have hz : VarSet.empty = ZOf [] := by funext z; simp [ZOf, VarSet.empty]
  have hc : VarSet.empty = columnVars [] := by funext z; simp [columnVars, VarSet.empty]
  have hlater : ∀ (l : List VarSet), (∀ x ∈ l, x ∈ D) → ∀ (i : Nat) (rows : List (List α)),
      (l.zipIdx i).foldlM (addRow conv zero ord cols.length)
        ⟨rows, ZOf cols, columnVars cols, cols.length⟩ = some ⟨rows ++ l.map (fun I => cols.map fun k => conv (I.get k)), ZOf cols, columnVars cols, cols.length⟩ := by
    intro l
    induction l with
    | nil => intro _ i rows; simp
    | cons x l ih =>
      intro hl i rows
      have hx := hl x (by simp)
      have hex := ho i x hx
      have er : (List.replicate cols.length zero) = cols.map fun _ => zero := by simp
      have ec : (cols.map fun k => if k ∈ ord i x then conv (x.get k) else zero) = cols.map fun k => conv (x.get k) := by
        apply List.map_congr_left
        intro k hk
        rw [if_pos]
        rw [hex.2 k, hs x hx I0 hI0]
        exact (hen.2 k).1 hk
      have e1 : addRow conv zero ord cols.length ⟨rows, ZOf cols, columnVars cols, cols.length⟩ (x, i) =
          some ⟨rows ++ [cols.map fun k => conv (x.get k)], ZOf cols, columnVars cols, cols.length⟩ := by
        unfold addRow
        simp only []
        rw [er, laterRow conv x cols hen.1 _ _ (fun _ => zero) (by
          intro k hk
          have := (hex.2 k).1 hk
          refine ⟨(hen.2 k).2 ?_, this⟩
          rw [hs I0 hI0 x hx]; exact this), ec]
        rfl
      rw [List.zipIdx_cons, List.foldlM_cons, e1]
      simp only [bind, Option.bind_some]
      refine (ih (fun y hy => hl y (by simp [hy])) _ _).trans ?_
      simp
  cases D with
  | nil => simp at h0
  | cons x D =>
    have : x = I0 := by simpa using h0
    subst this
    have e1 := firstRow conv zero x cols.length cols [] (by simpa using hen.1) (fun k hk => (hen.2 k).1 hk) (by simp)
    simp only [List.map_nil, List.nil_append, List.length_nil, Int.ofNat_zero, Nat.cast_zero, ← hz, ← hc] at e1
    have e2 : addRow conv zero ord cols.length ⟨[], VarSet.empty, VarSet.empty, 0⟩ (x, 0) = some ⟨[cols.map fun k => conv (x.get k)], ZOf cols, columnVars cols, cols.length⟩ := by
      unfold addRow
      simp only [← hcols]
      rw [e1]
      rfl
    rw [List.zipIdx_cons, List.foldlM_cons, e2]
    simp only [bind, Option.bind_some]
    have := hlater D (fun y hy => by simp [hy]) (0 + 1) [cols.map fun k => conv (x.get k)]
    rw [this]
    simp

theorem foldl_set (g : Int → Int) : ∀ (cols : List Int) (acc : VarSet), cols.foldl (fun (J : VarSet) k => J.set k (g k)) acc = fun z => if z ∈ cols then some (g z) else acc z := by
  intro cols
  induction cols with
  | nil => intro acc; simp
  | cons k cols ih =>
    intro acc
    rw [List.foldl_cons, ih]
    funext z
    by_cases hz : z ∈ cols
    · simp [hz]
    · by_cases hk : z = k
      · subst hk; simp [hz, VarSet.set]
      · simp [hz, hk, VarSet.set]

/-- Writing the entries of a row into an empty map. -/
theorem rowToMap {α : Type} (cols : List Int) (f : Int → α) (key : Nat → Int) (val : α → Int) (hkey : ∀ j k, cols[j]? = some k → key j = k) :
    (cols.map f).zipIdx.foldl (fun (I : VarSet) (x : α × Nat) => I.set (key x.2) (val x.1)) VarSet.empty = fun z => if z ∈ cols then some (val (f z)) else none := by
  have h1 : ∀ (l : List (Int × Nat)) (acc : VarSet), (∀ x ∈ l, key x.2 = x.1) →
      (l.map fun x => (f x.1, x.2)).foldl (fun (I : VarSet) (x : α × Nat) => I.set (key x.2) (val x.1)) acc = (l.map Prod.fst).foldl (fun (J : VarSet) k => J.set k (val (f k))) acc := by
    intro l
    induction l with
    | nil => intro acc _; rfl
    | cons x l ih =>
      intro acc hl
      simp only [List.map_cons, List.foldl_cons, hl x (by simp)]
      exact ih _ fun y hy => hl y (by simp [hy])
  have h2 : (cols.map f).zipIdx = cols.zipIdx.map fun x => (f x.1, x.2) := by
    rw [List.zipIdx_map]
    rfl
  rw [h2, h1 _ _ (by
    intro x hx
    have := List.mem_zipIdx_iff_getElem?.1 hx
    exact hkey _ _ this)]
  have h3 : cols.zipIdx.map Prod.fst = cols := by simp
  rw [h3, foldl_set (fun k => val (f k))]
  rfl

/-- Putting each instance in its group. -/
theorem groupAll {α : Type} (k : Nat) (f : Nat → Option α) : ∀ (G : List Int) (ys : List α) (i : Nat) (acc : Nat → List α), G.length = ys.length → (∀ g ∈ G, 0 ≤ g ∧ g < k) →
    (∀ j y, ys[j]? = some y → f (i + j) = some y) →
    (G.zipIdx i).foldlM (fun C (g : Int × Nat) => (f g.2).bind fun y => goPush C g.1 y) ((List.range k).map acc) =
      some ((List.range k).map fun (a : Nat) => acc a ++ ((ys.zip G).filter fun x => x.2 = (a : Int)).map Prod.fst) := by
  intro G
  induction G with
  | nil => intro ys i acc hl _ _; have : ys = [] := List.eq_nil_of_length_eq_zero (by simpa using hl.symm); subst this; simp
  | cons g G ih =>
    intro ys i acc hl hG hf
    cases ys with
    | nil => simp at hl
    | cons y ys =>
      obtain ⟨h0, h1⟩ := hG g (by simp)
      obtain ⟨a, rfl⟩ := Int.eq_ofNat_of_zero_le h0
      have hy := hf 0 y (by simp)
      rw [List.zipIdx_cons, List.foldlM_cons]
      simp only [Nat.add_zero] at hy
      simp only [hy, Option.bind_some]
      rw [goPush_range k acc a y (by omega)]
      simp only [bind, Option.bind_some]
      refine (ih ys (i + 1) _ (by simpa using hl) (fun g hg => hG g (by simp [hg])) (by
        intro j z hz
        have := hf (j + 1) z (by simpa using hz)
        rwa [show i + 1 + j = i + (j + 1) by omega])).trans ?_
      congr 1
      apply List.map_congr_left
      intro b _
      by_cases hb : a = b
      · subst hb; simp
      · have : ¬ ((a : Int) = (b : Int)) := by omega
        simp [hb, this]

theorem columnVars_get (cols : List Int) (j : Nat) (k : Int) (h : cols[j]? = some k) : (columnVars cols).get (j : Int) = k := by
  simp [VarSet.get, columnVars, h]

variable {F : Type} [GoFloat F]

theorem guessToData_spec {D : List VarSet} {cols : List Int} {k : Nat} {G : List Int} (hD : ∀ x ∈ D, Enumerates x cols)
    (hr : ∀ x ∈ D, ∀ c v, x c = some v → toInt (ofInt v : F) = v) (hG : G.length = D.length) (hk : ∀ g ∈ G, 0 ≤ g ∧ g < k) :
    guessToData (k : Int) G (D.map fun I => cols.map fun c => (ofInt (I.get c) : F)) (columnVars cols) =
      some ((List.range k).map fun (a : Nat) => ((D.zip G).filter fun x => x.2 = (a : Int)).map Prod.fst) := by
  unfold guessToData
  rw [if_neg (by omega), Int.toNat_natCast]
  have hrow : ∀ x ∈ D, (cols.map fun c => (ofInt (x.get c) : F)).zipIdx.foldl (fun (I : VarSet) (y : F × Nat) => I.set ((columnVars cols).get y.2) (toInt y.1)) VarSet.empty = x := by
    intro x hx
    rw [rowToMap cols (fun c => (ofInt (x.get c) : F)) (fun j => (columnVars cols).get (j : Int)) toInt (fun j c h => columnVars_get cols j c h)]
    funext z
    have hz := (hD x hx).2 z
    cases hxz : x z with
    | none =>
      rw [if_neg]
      rw [hz, hxz]; simp
    | some v =>
      rw [if_pos (by rw [hz, hxz]; rfl)]
      simp only [VarSet.get, hxz, Option.getD_some, hr x hx z v hxz]
  have := groupAll k (fun i => (D[i]?).map fun x => (cols.map fun c => (ofInt (x.get c) : F)).zipIdx.foldl (fun (I : VarSet) (y : F × Nat) => I.set ((columnVars cols).get y.2) (toInt y.1)) VarSet.empty)
    G D 0 (fun _ => []) hG hk (by
      intro j y hy
      rw [Nat.zero_add, hy, Option.map_some, hrow y (List.mem_of_getElem? hy)])
  simp only [List.nil_append] at this
  rw [← this]
  have e1 : ((List.range k).map fun _ => ([] : List VarSet)) = List.replicate k [] := by simp
  rw [e1]
  congr 1
  funext C g
  rw [List.getElem?_map]
  cases D[g.2]? <;> rfl

end Gospn
