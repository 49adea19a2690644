import Verif.Props.Input
import Verif.Proofs.Data
import Verif.Proofs.Log
import Mathlib.Data.List.Sort
import Mathlib.Algebra.Order.Floor.Ring
set_option linter.unusedSectionVars false
set_option linter.unusedSimpArgs false
/-
C85: ParsePartitionedData splits the rows of a file into a training and a test set.
-/
namespace Gospn
open Spec GoFloat

/-- `train` and `test` share out the rows `D`: the rows numbered `taken` (all different) are the test set, in this order and without variable `k`, whose values
are the labels; the others are the training set, in the order of `D`. -/
def Spec.SharesOut (D : List VarSet) (k : Int) (taken : List Nat) (train test : List VarSet) (labels : List Int) : Prop :=
  taken.Nodup ∧ (∀ i ∈ taken, i < D.length) ∧
  train = ((List.range D.length).filter (fun i => i ∉ taken)).map (fun i => D.getD i VarSet.empty) ∧
  test = taken.map (fun i => (D.getD i VarSet.empty).del k) ∧ labels = taken.map fun i => (D.getD i VarSet.empty).get k

theorem drawRow_spec {taken : List Nat} : ∀ {draws : List Nat}, (∃ x ∈ draws, x ∉ taken) →
    ∃ l rest, drawRow taken draws = some (l, rest) ∧ l ∈ draws ∧ l ∉ taken ∧ ∀ x ∈ draws, x ∈ taken ∨ x = l ∨ x ∈ rest := by
  intro draws
  induction draws with
  | nil => rintro ⟨x, hx, -⟩; simp at hx
  | cons d ds ih =>
    rintro ⟨x, hx, hxt⟩
    unfold drawRow
    by_cases hd : d ∈ taken
    · rw [if_pos hd]
      have : x ∈ ds := by
        rcases List.mem_cons.1 hx with rfl | h
        · exact absurd hd hxt
        · exact h
      obtain ⟨l, rest, h1, h2, h3, h4⟩ := ih ⟨x, this, hxt⟩
      refine ⟨l, rest, h1, by simp [h2], h3, ?_⟩
      intro y hy
      rcases List.mem_cons.1 hy with rfl | hy
      · exact Or.inl hd
      · exact h4 y hy
    · rw [if_neg hd]
      refine ⟨d, ds, rfl, by simp, hd, ?_⟩
      intro y hy
      rcases List.mem_cons.1 hy with rfl | hy
      · exact Or.inr (Or.inl rfl)
      · exact Or.inr (Or.inr hy)

theorem drawRow_none {taken : List Nat} : ∀ {draws : List Nat}, (∀ x ∈ draws, x ∈ taken) → drawRow taken draws = none := by
  intro draws
  induction draws with
  | nil => intro _; rfl
  | cons d ds ih =>
    intro h
    rw [drawRow, if_pos (h d (by simp)), ih fun x hx => h x (by simp [hx])]

/-- Enough different draws give the next `m` rows. -/
theorem drawRows_spec : ∀ (m : Nat) (draws taken : List Nat), taken.Nodup → taken.length + m ≤ (taken ++ draws).dedup.length →
    ∃ out, drawRows m draws taken = some (taken ++ out) ∧ (taken ++ out).Nodup ∧ out.length = m ∧ ∀ x ∈ out, x ∈ draws := by
  intro m
  induction m with
  | zero => intro draws taken hnd _; exact ⟨[], by simp [drawRows], by simpa using hnd, rfl, by simp⟩
  | succ m ih =>
    intro draws taken hnd hlen
    have hex : ∃ x ∈ draws, x ∉ taken := by
      by_contra hn
      push Not at hn
      have hsub : (taken ++ draws).dedup ⊆ taken := by
        intro x hx
        rw [List.mem_dedup] at hx
        rcases List.mem_append.1 hx with h | h
        · exact h
        · exact hn x h
      have := (List.nodup_dedup (taken ++ draws)).subperm hsub |>.length_le
      omega
    obtain ⟨l, rest, h1, h2, h3, h4⟩ := drawRow_spec hex
    have hnd' : (taken ++ [l]).Nodup := by
      rw [List.nodup_append]
      refine ⟨hnd, by simp, ?_⟩
      intro a ha b hb
      rw [List.mem_singleton] at hb
      subst hb
      rintro rfl
      exact h3 ha
    have hlen' : (taken ++ [l]).length + m ≤ ((taken ++ [l]) ++ rest).dedup.length := by
      have hsub : (taken ++ draws).dedup ⊆ ((taken ++ [l]) ++ rest).dedup := by
        intro x hx
        rw [List.mem_dedup] at hx ⊢
        rcases List.mem_append.1 hx with h | h
        · simp [h]
        · rcases h4 x h with h | h | h <;> simp [h]
      have := (List.nodup_dedup (taken ++ draws)).subperm hsub |>.length_le
      simp only [List.length_append, List.length_singleton]
      omega
    obtain ⟨out, h5, h6, h7, h8⟩ := ih rest (taken ++ [l]) hnd' hlen'
    have hrest : ∀ x ∈ rest, x ∈ draws := by
      have : ∀ (ds : List Nat) (l : Nat) (rest : List Nat), drawRow taken ds = some (l, rest) → ∀ x ∈ rest, x ∈ ds := by
        intro ds
        induction ds with
        | nil => intro l rest h; cases h
        | cons d ds ih2 =>
          intro l rest h x hx
          rw [drawRow] at h
          split at h
          · exact List.mem_cons_of_mem _ (ih2 l rest h x hx)
          · cases h; exact List.mem_cons_of_mem _ hx
      exact this draws l rest h1
    refine ⟨l :: out, ?_, by simpa using h6, by simp [h7], ?_⟩
    · rw [drawRows, h1, Option.bind_some, h5]; simp
    · intro x hx
      rcases List.mem_cons.1 hx with rfl | hx
      · exact h2
      · exact hrest x (h8 x hx)

/-- Too few different draws: the loop goes on. -/
theorem drawRows_none : ∀ (m : Nat) (draws taken : List Nat), taken.Nodup → (taken ++ draws).dedup.length < taken.length + m → drawRows m draws taken = none := by
  intro m
  induction m with
  | zero =>
    intro draws taken hnd h
    exfalso
    have : taken ⊆ (taken ++ draws).dedup := fun x hx => by rw [List.mem_dedup]; simp [hx]
    have := (hnd.subperm this).length_le
    omega
  | succ m ih =>
    intro draws taken hnd h
    rw [drawRows]
    by_cases hex : ∃ x ∈ draws, x ∉ taken
    · obtain ⟨l, rest, h1, h2, h3, h4⟩ := drawRow_spec hex
      rw [h1, Option.bind_some]
      have hnd' : (taken ++ [l]).Nodup := by
        rw [List.nodup_append]
        refine ⟨hnd, by simp, ?_⟩
        intro a ha b hb
        rw [List.mem_singleton] at hb
        subst hb
        rintro rfl
        exact h3 ha
      apply ih _ _ hnd'
      have hrest : ∀ (ds : List Nat) (l : Nat) (rest : List Nat), drawRow taken ds = some (l, rest) → ∀ x ∈ rest, x ∈ ds := by
        intro ds
        induction ds with
        | nil => intro l rest h; cases h
        | cons d ds ih2 =>
          intro l rest h x hx
          rw [drawRow] at h
          split at h
          · exact List.mem_cons_of_mem _ (ih2 l rest h x hx)
          · cases h; exact List.mem_cons_of_mem _ hx
      have hsub : ((taken ++ [l]) ++ rest).dedup ⊆ (taken ++ draws).dedup := by
        intro x hx
        rw [List.mem_dedup] at hx ⊢
        simp only [List.append_assoc, List.mem_append, List.mem_singleton] at hx
        rcases hx with h | h | h
        · simp [h]
        · subst h; simp [h2]
        · simp [hrest draws l rest h1 x h]
      have := (List.nodup_dedup ((taken ++ [l]) ++ rest)).subperm hsub |>.length_le
      simp only [List.length_append, List.length_singleton]
      omega
    · push Not at hex
      rw [drawRow_none hex]; rfl

/-- Removal by increasing numbers leaves the other rows. -/
theorem deleteRows_spec {α : Type} (fdata : List α) (dels : List Nat) (hs : dels.Pairwise (· < ·)) (hlt : ∀ d ∈ dels, d < fdata.length) :
    deleteRows fdata dels = some ((fdata.zipIdx.filter fun x => x.2 ∉ dels).map Prod.fst) := by
  unfold deleteRows
  have key : ∀ (ds : List Nat) (A B : List α) (b i : Nat), A.length + i = b → ds.Pairwise (· < ·) → (∀ d ∈ ds, b ≤ d ∧ d < b + B.length) →
      (ds.zipIdx i).foldlM (fun (l : List α) (x : Nat × Nat) => if x.2 ≤ x.1 ∧ x.1 - x.2 < l.length then some (l.eraseIdx (x.1 - x.2)) else none) (A ++ B) =
        some (A ++ ((B.zipIdx b).filter fun x => x.2 ∉ ds).map Prod.fst) := by
    intro ds
    induction ds with
    | nil => intro A B b i _ _ _; simp
    | cons d ds ih =>
      intro A B b i hA hp hb
      have hd := hb d (by simp)
      rw [List.pairwise_cons] at hp
      rw [List.zipIdx_cons, List.foldlM_cons]
      have hlen : d - i < (A ++ B).length := by simp; omega
      simp only
      rw [if_pos ⟨by omega, hlen⟩]
      simp only [Option.bind_eq_bind, Option.bind_some]
      have hsplit : B = B.take (d - b) ++ (B[d - b]'(by omega)) :: B.drop (d - b + 1) := by
        rw [← List.drop_eq_getElem_cons, List.take_append_drop]
      set B1 := B.take (d - b) with hB1
      set x := B[d - b]'(by omega) with hx
      set B2 := B.drop (d - b + 1) with hB2
      have hB1len : B1.length = d - b := by rw [hB1]; simp; omega
      have hB2len : d + 1 + B2.length = b + B.length := by rw [hB2]; simp; omega
      have herase : (A ++ B).eraseIdx (d - i) = (A ++ B1) ++ B2 := by
        conv_lhs => rw [hsplit]
        rw [← List.append_assoc, List.eraseIdx_append_of_length_le (by simp [hB1len]; omega)]
        have : d - i - (A ++ B1).length = 0 := by simp [hB1len]; omega
        rw [this]; rfl
      rw [herase, ih (A ++ B1) B2 (d + 1) (i + 1) (by simp [hB1len]; omega) hp.2 (by
        intro e he
        have h1 := hp.1 e he
        have h2 := hb e (by simp [he])
        omega)]
      congr 1
      rw [List.append_assoc]
      congr 1
      conv_rhs => rw [hsplit]
      rw [List.zipIdx_append, List.zipIdx_cons, List.filter_append, List.map_append, List.filter_cons]
      have hn1 : (B1.zipIdx b).filter (fun y => decide (y.2 ∉ d :: ds)) = B1.zipIdx b := by
        rw [List.filter_eq_self]
        intro y hy
        have h2 := List.snd_lt_add_of_mem_zipIdx hy
        simp only [decide_eq_true_eq, List.mem_cons, not_or]
        refine ⟨by omega, fun he => ?_⟩
        have := hp.1 _ he
        omega
      rw [hn1, List.zipIdx_map_fst]
      rw [show b + B1.length = d by omega, if_neg (by simp)]
      congr 2
      apply List.filter_congr
      intro y hy
      have h2 := List.le_snd_of_mem_zipIdx hy
      have : y.2 ≠ d := by omega
      simp [this]
  have := key dels [] fdata 0 0 rfl hs (by simpa using hlt)
  simpa using this

theorem zipIdx_filter_range {α : Type} (l : List α) (d : α) (p : Nat → Bool) : (l.zipIdx.filter fun x => p x.2).map Prod.fst = ((List.range l.length).filter p).map fun i => l.getD i d := by
  have : l.zipIdx = (List.range l.length).map fun i => (l.getD i d, i) := by
    apply List.ext_getElem
    · simp
    · intro i h1 h2
      have : i < l.length := by simpa using h1
      simp [this]
  rw [this, List.filter_map, List.map_map]
  rfl

/-- If the draws contain at least `m` different rows, the rows are shared out, `m` of them to the test set. Which ones depends on the draws only. -/
theorem partitionParsed_drawn (vars : List (Int × Int)) (D : List VarSet) (m : Nat) (draws : List Nat) (hd : ∀ x ∈ draws, x < D.length) (hm : m ≤ draws.dedup.length) :
    ∃ taken train test labels, drawRows m draws [] = some taken ∧ partitionParsed vars D m draws = some (vars, train, test, labels) ∧ taken.length = m ∧ (∀ i ∈ taken, i ∈ draws) ∧
      SharesOut D ((vars.length : Int) - 1) taken train test labels := by
  obtain ⟨taken, h1, h2, h3, h4⟩ := drawRows_spec m draws [] (by simp) (by simpa using hm)
  rw [List.nil_append] at h1 h2
  have hlt : ∀ i ∈ taken, i < D.length := fun i hi => hd i (h4 i hi)
  have hsort : (taken.mergeSort fun a b => decide (a ≤ b)).Pairwise (· < ·) := by
    have hs : (taken.mergeSort fun a b => decide (a ≤ b)).Pairwise (fun a b => decide (a ≤ b) = true) :=
      List.pairwise_mergeSort (by intro a b c h1 h2; simp at *; omega) (by intro a b; simp; omega) taken
    have hn : (taken.mergeSort fun a b => decide (a ≤ b)).Nodup := (List.mergeSort_perm taken _).nodup_iff.2 h2
    exact (hs.and hn).imp fun h => lt_of_le_of_ne (by simpa using h.1) h.2
  unfold partitionParsed
  rw [if_neg (by omega), Int.toNat_natCast, h1, Option.bind_some]
  rw [mapM_eq_some (g := fun i => D.getD i VarSet.empty), Option.bind_some]
  · rw [deleteRows_spec D _ hsort (by
      intro d hdm
      exact hlt d ((List.mergeSort_perm taken _).mem_iff.1 hdm)), Option.map_some]
    refine ⟨taken, _, _, _, rfl, rfl, h3, h4, h2, hlt, ?_, by rw [List.map_map]; rfl, by rw [List.map_map]; rfl⟩
    have e : ∀ i, decide (i ∉ taken.mergeSort fun a b => decide (a ≤ b)) = decide (i ∉ taken) := by
      intro i
      have := (List.mergeSort_perm taken fun a b => decide (a ≤ b)).mem_iff (a := i)
      simp [this]
    rw [← zipIdx_filter_range D VarSet.empty fun i => decide (i ∉ taken)]
    congr 1
    apply List.filter_congr
    intro x _
    exact e x.2
  · intro i hi
    simp [hlt i hi]

/-- If the draws contain at least `m` different rows, the rows are shared out, `m` of them to the test set. -/
theorem partitionParsed_spec (vars : List (Int × Int)) (D : List VarSet) (m : Nat) (draws : List Nat) (hd : ∀ x ∈ draws, x < D.length) (hm : m ≤ draws.dedup.length) :
    ∃ taken train test labels, partitionParsed vars D m draws = some (vars, train, test, labels) ∧ taken.length = m ∧ (∀ i ∈ taken, i ∈ draws) ∧
      SharesOut D ((vars.length : Int) - 1) taken train test labels := by
  obtain ⟨taken, train, test, labels, _, h⟩ := partitionParsed_drawn vars D m draws hd hm
  exact ⟨taken, train, test, labels, h⟩

/-- `ParsePartitionedData` on a data file, with `m = int((1-p)*n)`: training and test set are the rows of the file, `m` of them (chosen by the draws) in the test
set without the class variable. -/
theorem C85_partition {F : Type} [GoFloat F] {decls : List (Int × Int)} {rows : List (List Int)} {lines : List Str} (h : DataFile decls rows lines) (hne : rows ≠ [])
    (hlen : ∀ r ∈ rows, decls.length ≤ r.length) (hshort : ∀ l ∈ decls.map declLine ++ lines, l.length < 65536) (p : F) (draws : List Nat) (m : Nat)
    (hp : toInt (mul (sub (ofInt 1) p) (ofInt (rows.length : Nat)) : F) = m) (hd : ∀ x ∈ draws, x < rows.length) (hm : m ≤ draws.dedup.length) :
    ∃ taken train test labels, parsePartitionedData (dataText decls lines) p draws = some (decls, train, test, labels) ∧ taken.length = m ∧ (∀ i ∈ taken, i ∈ draws) ∧
      SharesOut (rows.map fun r => lineInstance (r.take decls.length)) ((decls.length : Int) - 1) taken train test labels := by
  unfold parsePartitionedData
  rw [C84_parseData_partial h hne hlen hshort, Option.bind_some]
  simp only [List.length_map, hp]
  exact partitionParsed_spec decls _ m draws (by simpa using hd) hm

/-- In exact arithmetic and for `0 ≤ p ≤ 1`, `m` is `(1-p)*n` rounded down, and at most `n`: the draws end with probability one. -/
theorem C85_size (p : ℝ) (h0 : 0 ≤ p) (h1 : p ≤ 1) (n : Nat) :
    ∃ m : Nat, m ≤ n ∧ m = ⌊(1 - p) * n⌋₊ ∧ toInt (mul (sub (ofInt 1) (XR.fin p)) (ofInt (n : Nat))) = (m : Int) := by
  refine ⟨⌊(1 - p) * n⌋₊, ?_, rfl, ?_⟩
  · rw [← Nat.cast_le (α := ℝ)]
    refine (Nat.floor_le (by nlinarith [Nat.cast_nonneg (α := ℝ) n])).trans ?_
    nlinarith [Nat.cast_nonneg (α := ℝ) n]
  · have hpos : 0 ≤ (1 - p) * (n : ℝ) := mul_nonneg (by linarith) (Nat.cast_nonneg _)
    simp only [XR.g_ofInt, XR.g_sub, XR.g_mul, XR.sub_fin, XR.mul_fin, Int.cast_one, Int.cast_natCast, GoFloat.toInt, XR.toInt]
    rw [if_pos hpos, Int.natCast_floor_eq_floor hpos]

/-- For `p > 1` (a negative number of test rows) it panics; with fewer than `m` different draws the loop never ends (always so for `p < 0` large enough that `m`
exceeds the number of rows). -/
theorem C85_bad_p {F : Type} [GoFloat F] {decls : List (Int × Int)} {rows : List (List Int)} {lines : List Str} (h : DataFile decls rows lines) (hne : rows ≠ [])
    (hlen : ∀ r ∈ rows, decls.length ≤ r.length) (hshort : ∀ l ∈ decls.map declLine ++ lines, l.length < 65536) (p : F) (draws : List Nat)
    (hp : toInt (mul (sub (ofInt 1) p) (ofInt (rows.length : Nat)) : F) < 0 ∨ (draws.dedup.length : Int) < toInt (mul (sub (ofInt 1) p) (ofInt (rows.length : Nat)) : F)) :
    parsePartitionedData (dataText decls lines) p draws = none := by
  unfold parsePartitionedData
  rw [C84_parseData_partial h hne hlen hshort, Option.bind_some]
  simp only [List.length_map]
  generalize toInt (mul (sub (ofInt 1) p) (ofInt (rows.length : Nat)) : F) = m at hp
  unfold partitionParsed
  split
  · rfl
  · rename_i hm
    rw [drawRows_none m.toNat draws [] (by simp) (by simp; omega)]; rfl

/-- Two rows, `p = 1/2`, draws that repeat: one test row. -/
noncomputable example : ∃ (lines : List Str), DataFile [(0, 2)] [[0], [1]] lines ∧ (∀ l ∈ [((0 : Int), (2 : Int))].map declLine ++ lines, l.length < 65536) ∧
    toInt (mul (sub (ofInt 1) (XR.fin (1 / 2))) (ofInt ([[0], [1]] : List (List Int)).length)) = ((1 : Nat) : Int) ∧ 1 ≤ [1, 1, 0].dedup.length := by
  have hr : ∀ v : Int, v = 0 ∨ v = 1 ∨ v = 2 → Int64Range v := by rintro v (rfl | rfl | rfl) <;> (constructor <;> norm_num)
  refine ⟨["0".toList, "1".toList], ⟨by simp, by simp [hr], ?_, by simp [hr]⟩, ?_, ?_, by decide⟩
  · exact List.Forall₂.cons (WritesRow.last 0 [] (by simp)) (List.Forall₂.cons (WritesRow.last 1 [] (by simp)) List.Forall₂.nil)
  · have : ([((0 : Int), (2 : Int))].map declLine ++ ["0".toList, "1".toList]).all (fun l => decide (l.length < 65536)) = true := by decide +kernel
    intro l hl
    simpa using List.all_eq_true.1 this l hl
  · obtain ⟨m, -, hm, h⟩ := C85_size (1 / 2) (by norm_num) (by norm_num) 2
    rw [show ([[0], [1]] : List (List Int)).length = 2 from rfl, h, hm]
    norm_num

end Gospn
