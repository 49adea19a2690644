/-
C124: what ImgClassify predicts does not depend on the labels it is tested against.
-/
import Verif.Model.ImgRun
import Verif.Props.PartitionInput
import Verif.Props.Input
import Verif.Props.App

set_option linter.unusedSectionVars false

namespace Gospn
open GoFloat Spec
variable {ι F : Type} [DecidableEq ι] [Fintype ι] [GoFloat F]

/-- The two data sets differ at most in variable `k` of the rows numbered `taken`. -/
def Spec.Relabelled (k : Int) (taken : List Nat) (D D' : List VarSet) : Prop :=
  D'.length = D.length ∧ ∀ i, i < D.length → (i ∉ taken → D'.getD i VarSet.empty = D.getD i VarSet.empty) ∧ ∀ w, w ≠ k → D'.getD i VarSet.empty w = D.getD i VarSet.empty w

/-- The number of predictions that are equal to the labels. -/
def Spec.agreeing (ps labels : List Int) : Nat := (ps.zip labels).countP fun x => x.1 = x.2

/-- The predictions for the test instances, one after the other. -/
def imgPredictions (N : Net ι F) (S : ι) (v nclass tk : Int) : Storer ι F → List VarSet → Option (List Int)
  | _, [] => some []
  | st, I :: test => (imgClassifyRow N S v nclass tk st I).bind fun r => (imgPredictions N S v nclass tk r.2.2 test).map fun ps => r.1 :: ps

theorem imgPredictions_fold (N : Net ι F) (S : ι) (v nclass tk : Int) : ∀ (test : List VarSet) (lbls : List Int) (c : Nat) (done : List VarSet) (st : Storer ι F), lbls.length = test.length →
    ((test.zip lbls).foldlM (imgClassifyStep N S v nclass tk) (c, done, st)).map (fun s => s.1) = (imgPredictions N S v nclass tk st test).map fun ps => c + agreeing ps lbls := by
  intro test
  induction test with
  | nil => intro lbls c done st h; simp [imgPredictions, agreeing]
  | cons I test ih =>
    intro lbls c done st h
    cases lbls with
    | nil => simp at h
    | cons l lbls =>
      rw [List.zip_cons_cons, List.foldlM_cons, imgClassifyStep, imgPredictions]
      dsimp only
      cases hr : imgClassifyRow N S v nclass tk st I with
      | none => rfl
      | some r =>
        simp only [Option.map_some, Option.bind_some]
        refine (ih lbls _ _ _ (by simpa using h)).trans ?_
        rw [Option.map_map]
        congr 1
        funext ps
        simp only [Function.comp, agreeing, List.zip_cons_cons, List.countP_cons]
        by_cases e : r.1 = l <;> simp [e]
        omega

theorem imgPredictions_length (N : Net ι F) (S : ι) (v nclass tk : Int) : ∀ (test : List VarSet) (st : Storer ι F) (ps : List Int), imgPredictions N S v nclass tk st test = some ps → ps.length = test.length := by
  intro test
  induction test with
  | nil => intro st ps h; cases h; rfl
  | cons I test ih =>
    intro st ps h
    rw [imgPredictions] at h
    cases hr : imgClassifyRow N S v nclass tk st I with
    | none => rw [hr] at h; cases h
    | some r =>
      rw [hr, Option.bind_some] at h
      cases hp : imgPredictions N S v nclass tk r.2.2 test with
      | none => rw [hp] at h; cases h
      | some qs =>
        rw [hp] at h
        cases h
        simp [ih _ _ hp]

/-- The predictions of `ImgClassify`. -/
def imgPredicts (N : Net ι F) (S : ι) (v nclass : Int) (test : List VarSet) : Option (List Int) :=
  if nclass < 0 then none else imgPredictions N S v nclass (Storer.new : Storer ι F).newTicket.1 (Storer.new : Storer ι F).newTicket.2 test

theorem imgClassify_predicts (N : Net ι F) (S : ι) (v nclass : Int) (test : List VarSet) (lbls : List Int) (hl : lbls.length = test.length) (hc : ∀ l ∈ lbls, 0 ≤ l ∧ l < nclass) :
    (imgClassify N S v nclass test lbls).map (fun x => (x.1, x.2.1)) = (imgPredicts N S v nclass test).map fun ps => (agreeing ps lbls, test.length) := by
  have hf := imgPredictions_fold N S v nclass (Storer.new : Storer ι F).newTicket.1 test lbls 0 [] (Storer.new : Storer ι F).newTicket.2 hl
  unfold imgClassify imgPredicts
  dsimp only
  by_cases hn : nclass < 0
  · rw [if_pos hn]
    cases (test.zip lbls).foldlM (imgClassifyStep N S v nclass (Storer.new : Storer ι F).newTicket.1) (0, [], (Storer.new : Storer ι F).newTicket.2) with
    | none => rfl
    | some s => simp [hn]
  · rw [if_neg hn]
    cases hs : (test.zip lbls).foldlM (imgClassifyStep N S v nclass (Storer.new : Storer ι F).newTicket.1) (0, [], (Storer.new : Storer ι F).newTicket.2) with
    | none =>
      rw [hs] at hf
      cases hp : imgPredictions N S v nclass (Storer.new : Storer ι F).newTicket.1 (Storer.new : Storer ι F).newTicket.2 test with
      | none => rfl
      | some ps => rw [hp] at hf; cases hf
    | some s =>
      rw [hs] at hf
      cases hp : imgPredictions N S v nclass (Storer.new : Storer ι F).newTicket.1 (Storer.new : Storer ι F).newTicket.2 test with
      | none => rw [hp] at hf; cases hf
      | some ps =>
        rw [hp] at hf
        simp only [Option.map_some, Option.some.injEq, zero_add] at hf
        simp only [Option.bind_some, if_neg hn]
        rw [if_pos (by simpa using hc)]
        simp [hf]

/-- C124: for a data file with the variables `vars` and the rows `D`, and given random numbers, there is one list of predictions (or the call panics) that does not depend on the classes of the
rows in the test set: for every data file that differs from the given one in these only, ImgClassify learns from the same data, makes the same predictions, and returns how many of them are the
classes given in the file, and the size of the test set. -/
theorem C124_blind (lf : List (Int × Int) → List VarSet → Option (Net ι F × ι)) (vars : List (Int × Int)) (D : List VarSet) (p : F) (m : Nat) (hm : toInt (mul (sub (ofInt 1) p) (ofInt (D.length : Nat))) = (m : Int))
    (draws : List Nat) (hd : ∀ x ∈ draws, x < D.length) (hdm : m ≤ draws.dedup.length) :
    ∃ (taken : List Nat) (ps : Option (List Int)), taken.length = m ∧ taken.Nodup ∧ (∀ i ∈ taken, i ∈ draws) ∧ (∀ l, ps = some l → l.length = m) ∧
      ∀ (D' : List VarSet) (text : Str), parseData text = some (vars, D') → Relabelled ((vars.length : Int) - 1) taken D D' →
        (∀ c, ((vars.length : Int) - 1, c) ∈ vars → ∀ i ∈ taken, 0 ≤ (D'.getD i VarSet.empty).get ((vars.length : Int) - 1) ∧ (D'.getD i VarSet.empty).get ((vars.length : Int) - 1) < c) →
        imgClassifyFile lf text p draws = ps.map fun l => (agreeing l (taken.map fun i => (D'.getD i VarSet.empty).get ((vars.length : Int) - 1)), m) := by
  obtain ⟨taken, train, test, labels, h1, h2, h3, h4, hnd, hlt, htr, hte, hla⟩ := partitionParsed_drawn vars D m draws hd hdm
  refine ⟨taken, (lf vars train).bind fun S => (vars.find? fun x => x.1 = (vars.length : Int) - 1).bind fun v => imgPredicts S.1 S.2 ((vars.length : Int) - 1) v.2 test, h3, hnd, h4, ?_, ?_⟩
  · intro l hl
    cases e1 : lf vars train with
    | none => rw [e1] at hl; cases hl
    | some S =>
      cases e2 : vars.find? (fun x => x.1 = (vars.length : Int) - 1) with
      | none => rw [e1, e2] at hl; cases hl
      | some v =>
        rw [e1, e2] at hl
        simp only [Option.bind_some, imgPredicts] at hl
        split at hl
        · cases hl
        · rw [imgPredictions_length _ _ _ _ _ _ _ _ hl, hte, List.length_map, h3]
  · intro D' text hp hrel hcl
    have hd' : ∀ x ∈ draws, x < D'.length := by rw [hrel.1]; exact hd
    obtain ⟨taken', train', test', labels', k1, k2, k3, k4, -, -, ktr, kte, kla⟩ := partitionParsed_drawn vars D' m draws hd' hdm
    rw [h1] at k1
    cases k1
    have etr : train' = train := by
      rw [ktr, htr, hrel.1]
      apply List.map_congr_left
      intro i hi
      simp only [List.mem_filter, List.mem_range, decide_eq_true_eq] at hi
      exact (hrel.2 i hi.1).1 hi.2
    have ete : test' = test := by
      rw [kte, hte]
      apply List.map_congr_left
      intro i hi
      funext w
      unfold VarSet.del
      split
      · rfl
      · rename_i hw
        exact (hrel.2 i (hlt i hi)).2 w hw
    unfold imgClassifyFile parsePartitionedData
    rw [hp, Option.bind_some]
    dsimp only
    rw [hrel.1, hm, k2, Option.bind_some, etr, ete]
    unfold imgLearnClassify
    dsimp only
    cases e1 : lf vars train with
    | none => rfl
    | some S =>
      cases e2 : vars.find? (fun x => x.1 = (vars.length : Int) - 1) with
      | none => rfl
      | some v =>
        simp only [Option.bind_some]
        have hv := List.mem_of_find?_eq_some e2
        have hv2 : v.1 = (vars.length : Int) - 1 := by simpa using List.find?_some e2
        rw [imgClassify_predicts _ _ _ _ _ _ (by rw [kla, hte]; simp) ?_, kla, hte]
        · simp [h3]
        · intro l hl
          rw [kla] at hl
          obtain ⟨i, hi, rfl⟩ := List.mem_map.1 hl
          exact hcl v.2 (by rw [← hv2]; exact hv) i hi

/-- Two rows of two variables; the last value of the second row is `c`. -/
theorem twoPairs_parse (c : Int) (hc : c = 0 ∨ c = 1) : parseData (dataText [(0, 2), (1, 2)] [decimal 0 ++ ',' :: decimal 0, decimal 1 ++ ',' :: decimal c]) = some ([(0, 2), (1, 2)], [lineInstance [0, 0], lineInstance [1, c]]) := by
  have hw : ∀ v w : Int, WritesRow [v, w] (decimal v ++ ',' :: decimal w) := fun v w => by simpa using WritesRow.cons v [','] [w] _ (by simp) (by simp [IsSep]) (WritesRow.last w [] (by simp))
  have h := C84_parseData_partial (decls := [(0, 2), (1, 2)]) (rows := [[0, 0], [1, c]]) (lines := [decimal 0 ++ ',' :: decimal 0, decimal 1 ++ ',' :: decimal c])
    ⟨by decide, by simp [Int64Range], .cons (hw 0 0) (.cons (hw 1 c) .nil), by rcases hc with rfl | rfl <;> simp [Int64Range]⟩ (by simp) (by simp) (by rcases hc with rfl | rfl <;> decide)
  simpa using h

theorem half_of_two : toInt (mul (sub (ofInt 1) (XR.fin (1 / 2))) (ofInt ((2 : Nat) : Int)) : XR) = ((1 : Nat) : Int) := by
  have : (mul (sub (ofInt 1) (XR.fin (1 / 2))) (ofInt ((2 : Nat) : Int)) : XR) = XR.fin 1 := by
    simp
    norm_num
  rw [this]
  show (if (0 : ℝ) ≤ 1 then ⌊(1 : ℝ)⌋ else ⌈(1 : ℝ)⌉) = 1
  simp

/-- The hypotheses of `C124_blind` can be met, with two files that differ. -/
example : toInt (mul (sub (ofInt 1) (XR.fin (1 / 2))) (ofInt (([lineInstance [0, 0], lineInstance [1, 1]] : List VarSet).length : Nat)) : XR) = ((1 : Nat) : Int) ∧ (∀ x ∈ [1], x < ([lineInstance [0, 0], lineInstance [1, 1]] : List VarSet).length) ∧
    1 ≤ [1].dedup.length ∧ drawRows 1 [1] [] = some [1] ∧ ∀ c : Int, c = 0 ∨ c = 1 → ∃ text, parseData text = some ([(0, 2), (1, 2)], [lineInstance [0, 0], lineInstance [1, c]]) ∧
      Relabelled 1 [1] [lineInstance [0, 0], lineInstance [1, 1]] [lineInstance [0, 0], lineInstance [1, c]] := by
  refine ⟨?_, by simp, by decide, rfl, fun c hc => ⟨_, twoPairs_parse c hc, rfl, ?_⟩⟩
  · exact half_of_two
  · intro i hi
    have : i = 0 ∨ i = 1 := by simp at hi; omega
    rcases this with rfl | rfl
    · simp
    · refine ⟨by simp, ?_⟩
      intro w hw
      simp only [List.getD_cons_succ, List.getD_cons_zero, lineInstance]
      split
      · obtain ⟨k, rfl⟩ := Int.eq_ofNat_of_zero_le ‹_›
        match k with
        | 0 => rfl
        | 1 => exact absurd rfl hw
        | k + 2 => rfl
      · rfl

/-- C124: ImgBatchClassify adds up the results of its iterations. Without a panic the number of instances is the size of the test set times the number of iterations. -/
theorem C124_batch (lf : List (Int × Int) → List VarSet → Option (Net ι F × ι)) (text : Str) (p : F) (draws : Nat → List Nat) (n : Nat) (c t : Nat → Nat)
    (h : ∀ i < n, imgClassifyFile lf text p (draws i) = some (c i, t i)) :
    imgBatchClassify lf text p n draws = some (∑ i ∈ Finset.range n, c i, ∑ i ∈ Finset.range n, t i) := by
  unfold imgBatchClassify
  rw [Int.toNat_natCast]
  induction n with
  | zero => rfl
  | succ n ih =>
    rw [List.range_succ, List.foldlM_append, ih fun i hi => h i (by omega)]
    simp only [Option.bind_eq_bind, Option.bind_some, List.foldlM_cons, List.foldlM_nil, h n (by omega), Option.map_some, Finset.sum_range_succ]
    rfl

/-- The hypothesis of `C124_batch` can be met. -/
example : ∃ c t : Nat → Nat, ∀ i < 3, imgClassifyFile (fun _ _ => some (mixNet, 0)) (dataText [(0, 2), (1, 2)] [decimal 0 ++ ',' :: decimal 0, decimal 1 ++ ',' :: decimal 1]) (XR.fin (1 / 2)) ((fun i => [i % 2]) i) = some (c i, t i) := by
  have key : ∀ i : Nat, ∃ r : Nat × Nat, imgClassifyFile (fun _ _ => some (mixNet, 0)) (dataText [(0, 2), (1, 2)] [decimal 0 ++ ',' :: decimal 0, decimal 1 ++ ',' :: decimal 1]) (XR.fin (1 / 2)) [i % 2] = some r := by
    intro i
    obtain ⟨taken, train, test, labels, -, h2, h3, -, hnd, hlt, -, hte, hla⟩ := partitionParsed_drawn [(0, 2), (1, 2)] [lineInstance [0, 0], lineInstance [1, 1]] 1 [i % 2] (by simp; omega) (by simp)
    have hrow : ∀ i < 2, ∀ w, ∀ y ∈ ([lineInstance [0, 0], lineInstance [1, 1]] : List VarSet).getD i VarSet.empty w, y = 0 ∨ y = 1 := by
      intro i hi w y hy
      have : i = 0 ∨ i = 1 := by omega
      rcases this with rfl | rfl
      · simp only [List.getD_cons_zero, lineInstance] at hy
        split at hy
        · have := List.mem_of_getElem? hy
          simp at this; simp [this]
        · cases hy
      · simp only [List.getD_cons_succ, List.getD_cons_zero, lineInstance] at hy
        split at hy
        · have := List.mem_of_getElem? hy
          simp at this; simp [this]
        · cases hy
    obtain ⟨ps, -, h⟩ := C91_imgClassify_partial mixNet 0 (fun _ => {0, 1}) mixNet_acyclic mixNet_siblings (by decide)
      (by
        intro n cs w h
        fin_cases n <;> simp [mixNet] at h
        rw [← h.1]; simp) mixNet_complete mixNet_decomposable mixNet_weights.nonneg mixNet_discrete 1 2 (by decide)
      ⟨4, _, Relation.ReflTransGen.tail (b := 1) (.single (by decide)) (by decide), rfl, rfl⟩
      (by
        intro j h0 h2
        have : j = 0 ∨ j = 1 := by omega
        rcases this with rfl | rfl <;> simp) test labels (by rw [hte, hla]; simp)
      (by
        intro I hI
        rw [hte] at hI
        obtain ⟨k, hk, rfl⟩ := List.mem_map.1 hI
        refine ⟨by simp [VarSet.del], ?_⟩
        intro w _ y hy
        unfold VarSet.del at hy
        split at hy
        · cases hy
        · have := hrow k (hlt k hk) w y hy
          simpa using this)
      (by
        intro l hl
        rw [hla] at hl
        obtain ⟨k, hk, rfl⟩ := List.mem_map.1 hl
        have hk2 : k = 0 ∨ k = 1 := by have := hlt k hk; simp at this; omega
        rcases hk2 with rfl | rfl <;> simp [VarSet.get, lineInstance])
    refine ⟨((List.zip ps labels).countP (fun x => x.1 = x.2), test.length), ?_⟩
    unfold imgClassifyFile parsePartitionedData
    rw [twoPairs_parse 1 (.inr rfl), Option.bind_some]
    dsimp only
    rw [show (([lineInstance [0, 0], lineInstance [1, 1]] : List VarSet).length : Nat) = 2 from rfl, half_of_two, h2, Option.bind_some]
    unfold imgLearnClassify
    simp only [Option.bind_some]
    rw [show (List.find? (fun x => decide (x.1 = (([((0 : Int), (2 : Int)), (1, 2)] : List (Int × Int)).length : Int) - 1)) [((0 : Int), (2 : Int)), (1, 2)]) = some (1, 2) from rfl]
    simp only [Option.bind_some]
    rw [show (([((0 : Int), (2 : Int)), (1, 2)] : List (Int × Int)).length : Int) - 1 = 1 from rfl, h]
    rfl
  choose r hr using key
  exact ⟨fun i => (r i).1, fun i => (r i).2, fun i _ => hr i⟩

end Gospn
