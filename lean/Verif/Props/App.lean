/-
C91: what ImgClassify counts.
-/
import Verif.Model.App
import Verif.Props.Evaluate

set_option linter.unusedSectionVars false
set_option linter.unusedSimpArgs false

namespace Gospn
open Spec GoFloat
variable {ι F : Type} [GoFloat F] [DecidableEq ι] [Fintype ι]

/-- `getValue` returns the value of the root and leaves a usable storage. -/
theorem imgValue_good {N : Net ι F} {S : ι} {I : VarSet} (hac : Acyclic N.ch) (hso : SiblingOrdered N.ch S) (hS : N.ch S ≠ [])
    (hne : ∀ n cs w, N.kind n = .sum cs w → cs ≠ []) {tk : Int} {st : Storer ι F} (hg : GoodAt tk st) {x : F} (hx : N.value I S = some x) :
    ∃ st', imgValue N S tk I st = some (x, st') ∧ GoodAt tk st' := by
  obtain ⟨st', h1, h2, h3⟩ := storeInference_good hac hso hS hne hg hx
  exact ⟨st'.reset tk, by simp [imgValue, h1, h3], h2.reset⟩

/-- The comparison of the classes, without the storage. -/
def imgClass (val : Nat → F) (pz : F) (js : List Nat) (acc : F × Int) : F × Int :=
  js.foldl (fun acc j => if lt acc.1 (GoFloat.exp (sub (val j) pz)) then (GoFloat.exp (sub (val j) pz), (j : Int)) else acc) acc

theorem imgClass_loop {N : Net ι F} {S : ι} (hac : Acyclic N.ch) (hso : SiblingOrdered N.ch S) (hS : N.ch S ≠ []) (hne : ∀ n cs w, N.kind n = .sum cs w → cs ≠ [])
    {v tk : Int} {pz : F} {J : VarSet} {val : Nat → F} : ∀ (js : List Nat) (y : ImgState ι F), GoodAt tk y.st → y.inst.del v = J →
      (∀ j ∈ js, N.value (J.set v (j : Int)) S = some (val j)) →
      ∃ st' inst', GoodAt tk st' ∧ inst'.del v = J ∧ js.foldlM (imgClassStep N S v tk pz) y = some ⟨st', inst', (imgClass val pz js (y.max, y.imax)).1, (imgClass val pz js (y.max, y.imax)).2⟩ := by
  intro js
  induction js with
  | nil => intro y hg hJ _; exact ⟨y.st, y.inst, hg, hJ, rfl⟩
  | cons j js ih =>
    intro y hg hJ hv
    have hset : y.inst.set v (j : Int) = J.set v (j : Int) := by rw [← hJ, del_set]
    obtain ⟨st1, g1, g2⟩ := imgValue_good hac hso hS hne hg (hv j (by simp))
    have hstep : imgClassStep N S v tk pz y j = some ⟨st1, J.set v (j : Int), (if lt y.max (GoFloat.exp (sub (val j) pz)) then (GoFloat.exp (sub (val j) pz), (j : Int)) else (y.max, y.imax)).1,
        (if lt y.max (GoFloat.exp (sub (val j) pz)) then (GoFloat.exp (sub (val j) pz), (j : Int)) else (y.max, y.imax)).2⟩ := by
      unfold imgClassStep
      simp only [hset, g1, Option.map_some]
      split <;> rfl
    rw [List.foldlM_cons, hstep]
    have hdel : (J.set v (j : Int)).del v = J := by rw [set_del, ← hJ, del_del]
    exact ih ⟨st1, J.set v (j : Int), (if lt y.max (GoFloat.exp (sub (val j) pz)) then (GoFloat.exp (sub (val j) pz), (j : Int)) else (y.max, y.imax)).1,
        (if lt y.max (GoFloat.exp (sub (val j) pz)) then (GoFloat.exp (sub (val j) pz), (j : Int)) else (y.max, y.imax)).2⟩ g2 hdel fun i hi => hv i (by simp [hi])

/-- Class `p` is the first among the most probable of the classes below `n`; `val j` is the logarithm of the probability of class `j` together with the rest of the instance. -/
def FirstBest (val : Nat → XR) (n p : Nat) : Prop := p < n ∧ (∀ j < n, unlog (val j) ≤ unlog (val p)) ∧ ∀ j < p, unlog (val j) < unlog (val p)

theorem exp_sub_fin {x : XR} (h : IsLogProb x) (r : ℝ) : (GoFloat.exp (sub x (.fin r)) : XR) = .fin (unlog x / Real.exp r) := by
  cases x with
  | nan => exact absurd h (by simp [IsLogProb])
  | pinf => exact absurd h (by simp [IsLogProb])
  | ninf =>
    show XR.exp (XR.sub .ninf (.fin r)) = _
    simp [XR.sub, XR.neg, XR.add, XR.exp, unlog]
  | fin a =>
    show XR.exp (XR.sub (.fin a) (.fin r)) = _
    simp [XR.sub, XR.neg, XR.add, XR.exp, unlog, Real.exp_add, Real.exp_neg, div_eq_mul_inv]

theorem imgClass_best {val : Nat → XR} (r : ℝ) (n : Nat) (hn : 0 < n) (h : ∀ j < n, IsLogProb (val j)) :
    ∃ p, FirstBest val n p ∧ imgClass val (.fin r) (List.range n) (ofInt (-1), -1) = (.fin (unlog (val p) / Real.exp r), (p : Int)) := by
  have hpos := Real.exp_pos r
  induction n with
  | zero => omega
  | succ n ih =>
    have hfold : imgClass val (.fin r) (List.range (n + 1)) (ofInt (-1), -1) =
        (fun acc : XR × Int => if lt acc.1 (GoFloat.exp (sub (val n) (.fin r))) then (GoFloat.exp (sub (val n) (.fin r)), (n : Int)) else acc) (imgClass val (.fin r) (List.range n) (ofInt (-1), -1)) := by
      unfold imgClass
      rw [List.range_succ, List.foldl_append]
      rfl
    rw [hfold]
    beta_reduce
    rw [exp_sub_fin (h n (by omega))]
    by_cases hn0 : n = 0
    · subst hn0
      refine ⟨0, ⟨by omega, ?_, by simp⟩, ?_⟩
      · intro j hj
        have : j = 0 := by omega
        subst this; exact le_refl _
      · have h1 : imgClass val (.fin r) (List.range 0) (ofInt (-1), -1) = (.fin (-1), -1) := by
          simp [imgClass]
        rw [h1]
        have h2 : (-1 : ℝ) < unlog (val 0) / Real.exp r := by
          have := div_nonneg (unlog_nonneg (val 0)) hpos.le
          linarith
        simp [XR.lt, h2]
    · obtain ⟨p, ⟨p1, p2, p3⟩, hp⟩ := ih (by omega) fun j hj => h j (by omega)
      rw [hp]
      by_cases hlt : unlog (val p) < unlog (val n)
      · refine ⟨n, ⟨by omega, ?_, ?_⟩, ?_⟩
        · intro j hj
          by_cases e : j = n
          · subst e; exact le_refl _
          · exact (p2 j (by omega)).trans hlt.le
        · intro j hj
          exact (p2 j hj).trans_lt hlt
        · have : unlog (val p) / Real.exp r < unlog (val n) / Real.exp r := div_lt_div_of_pos_right hlt hpos
          simp [XR.lt, this]
      · refine ⟨p, ⟨by omega, ?_, p3⟩, ?_⟩
        · intro j hj
          by_cases e : j = n
          · subst e; exact not_lt.1 hlt
          · exact p2 j (by omega)
        · have : ¬ unlog (val p) / Real.exp r < unlog (val n) / Real.exp r := by
            rw [not_lt]
            exact div_le_div_of_nonneg_right (not_lt.1 hlt) hpos.le
          simp [XR.lt, this]

theorem imgClass_zero {val : Nat → XR} : ∀ (js : List Nat), (∀ j ∈ js, val j = .ninf) → imgClass val .ninf js (ofInt (-1), -1) = (ofInt (-1), -1) := by
  intro js
  induction js with
  | nil => intro _; rfl
  | cons j js ih =>
    intro h
    have : lt (ofInt (-1) : XR) (GoFloat.exp (sub (val j) XR.ninf)) = false := by rw [h j (by simp)]; rfl
    unfold imgClass
    rw [List.foldl_cons]
    simp only [this]
    exact ih fun i hi => h i (by simp [hi])

/-- What is found for an instance `I` without class: nothing (-1) if it has probability zero, and otherwise the first of the most probable classes. -/
def Classified (N : Net ι XR) (S : ι) (v nclass : Int) (I : VarSet) (p : Int) : Prop :=
  ∃ x, N.value I S = some x ∧ IsLogProb x ∧ (x = .ninf → p = -1) ∧
    (x ≠ .ninf → ∃ (val : Nat → XR) (k : Nat), (∀ j : Nat, (j : Int) < nclass → N.value (I.set v (j : Int)) S = some (val j)) ∧ p = (k : Int) ∧ FirstBest val nclass.toNat k)

theorem imgClassifyRow_spec {N : Net ι XR} {S : ι} {dom : Int → Finset Int} (hac : Acyclic N.ch) (hso : SiblingOrdered N.ch S) (hS : N.ch S ≠ [])
    (hne : ∀ n cs w, N.kind n = .sum cs w → cs ≠ []) (hcomp : IsComplete N S) (hdec : IsDecomposable N S) (hw : NonnegWeights N S) (hl : DiscreteLeaves N S dom)
    {v nclass : Int} (hn : 0 < nclass) (hv : InScope N S v) (hdom : ∀ j : Int, 0 ≤ j → j < nclass → j ∈ dom v) {tk : Int} {st : Storer ι XR} (hg : GoodAt tk st) {I : VarSet} (hI : I v = none)
    (hdm : InDomain N S (fun v => (dom v : Set Int)) I) : ∃ p st', imgClassifyRow N S v nclass tk st I = some (p, I, st') ∧ GoodAt tk st' ∧ Classified N S v nclass I p := by
  have hval : ∀ j : Nat, (j : Int) < nclass → ∃ x y, N.value I S = some x ∧ IsLogProb x ∧ N.value (I.set v (j : Int)) S = some y ∧ IsLogProb y ∧ unlog y ≤ unlog x := fun j hj =>
    value_set_le hac hcomp hdec hw hl hdm hv hI (hdom j (by omega) hj)
  obtain ⟨pz, _, hpz, hpl, _⟩ := hval 0 (by simpa using hn)
  let val : Nat → XR := fun j => (N.value (I.set v (j : Int)) S).getD .nan
  have hvj : ∀ j : Nat, (j : Int) < nclass → N.value (I.set v (j : Int)) S = some (val j) ∧ IsLogProb (val j) ∧ unlog (val j) ≤ unlog pz := by
    intro j hj
    obtain ⟨x, y, e1, _, e3, e4, e5⟩ := hval j hj
    rw [hpz, Option.some.injEq] at e1
    subst e1
    have : val j = y := by simp [val, e3]
    rw [this]
    exact ⟨e3, e4, e5⟩
  have hrange : ∀ j ∈ List.range nclass.toNat, (j : Int) < nclass := by
    intro j hj
    rw [List.mem_range] at hj
    omega
  have hdelI : I.del v = I := by
    funext k
    by_cases hk : k = v
    · subst hk; simp [VarSet.del, hI]
    · simp [VarSet.del, hk]
  obtain ⟨st1, g1, g2⟩ := imgValue_good hac hso hS hne hg hpz
  obtain ⟨st2, inst2, g3, g4, g5⟩ := imgClass_loop hac hso hS hne (v := v) (tk := tk) (pz := pz) (J := I) (val := val) (List.range nclass.toNat) ⟨st1, I, ofInt (-1), -1⟩ g2 hdelI
    fun j hj => (hvj j (hrange j hj)).1
  refine ⟨(imgClass val pz (List.range nclass.toNat) (ofInt (-1), -1)).2, st2, ?_, g3, pz, hpz, hpl, ?_, ?_⟩
  · unfold imgClassifyRow
    rw [if_neg (by omega), g1, Option.bind_some, g5, Option.map_some]
    simp only [g4]
  · rintro rfl
    rw [imgClass_zero]
    intro j hj
    obtain ⟨_, h2, h3⟩ := hvj j (hrange j hj)
    cases hvv : val j with
    | nan => rw [hvv] at h2; exact absurd h2 (by simp [IsLogProb])
    | pinf => rw [hvv] at h2; exact absurd h2 (by simp [IsLogProb])
    | ninf => rfl
    | fin r =>
      rw [hvv] at h3
      have := Real.exp_pos r
      simp only [unlog] at h3
      linarith
  · intro hx
    cases pz with
    | nan => exact absurd hpl (by simp [IsLogProb])
    | pinf => exact absurd hpl (by simp [IsLogProb])
    | ninf => exact absurd rfl hx
    | fin r =>
      obtain ⟨k, hk, he⟩ := imgClass_best (val := val) r nclass.toNat (by omega) fun j hj => (hvj j (by omega)).2.1
      exact ⟨val, k, fun j hj => (hvj j hj).1, by rw [he], hk⟩

/-- **C91.** `ImgClassify`, after learning, returns the number of test instances whose label is the first of the classes that are most probable given the pixels, and the number of test
instances; the instances are unchanged. An instance whose pixels have probability zero is classified as -1 and so always counted as wrong. Missing: networks whose children are not in
topological order or whose root is a leaf (C04). -/
theorem C91_imgClassify_partial (N : Net ι XR) (S : ι) (dom : Int → Finset Int) (hac : Acyclic N.ch) (hso : SiblingOrdered N.ch S) (hS : N.ch S ≠ [])
    (hne : ∀ n cs w, N.kind n = .sum cs w → cs ≠ []) (hcomp : IsComplete N S) (hdec : IsDecomposable N S) (hw : NonnegWeights N S) (hl : DiscreteLeaves N S dom)
    (v nclass : Int) (hn : 0 < nclass) (hv : InScope N S v) (hdom : ∀ j : Int, 0 ≤ j → j < nclass → j ∈ dom v) (test : List VarSet) (lbls : List Int) (hlen : lbls.length = test.length)
    (ht : ∀ I ∈ test, I v = none ∧ InDomain N S (fun v => (dom v : Set Int)) I) (hlab : ∀ l ∈ lbls, 0 ≤ l ∧ l < nclass) :
    ∃ ps : List Int, List.Forall₂ (Classified N S v nclass) test ps ∧ imgClassify N S v nclass test lbls = some ((List.zip ps lbls).countP (fun x => x.1 = x.2), test.length, test) := by
  have key : ∀ (test : List VarSet) (lbls : List Int) (st : Storer ι XR) (c : Nat) (done : List VarSet) (tk : Int), lbls.length = test.length → GoodAt tk st →
      (∀ I ∈ test, I v = none ∧ InDomain N S (fun v => (dom v : Set Int)) I) →
      ∃ (ps : List Int) (st' : Storer ι XR), List.Forall₂ (Classified N S v nclass) test ps ∧
        (test.zip lbls).foldlM (imgClassifyStep N S v nclass tk) (c, done, st) = some (c + (List.zip ps lbls).countP (fun x => x.1 = x.2), done ++ test, st') := by
    intro test
    induction test with
    | nil => intro lbls st c done tk _ _ _; exact ⟨[], st, .nil, by simp⟩
    | cons I test ih =>
      intro lbls st c done tk hlen hg ht
      cases lbls with
      | nil => simp at hlen
      | cons l lbls =>
        obtain ⟨p, st1, h1, h2, h3⟩ := imgClassifyRow_spec hac hso hS hne hcomp hdec hw hl hn hv hdom hg (ht I (by simp)).1 (ht I (by simp)).2
        obtain ⟨ps, st2, k1, k2⟩ := ih lbls st1 (if p = l then c + 1 else c) (done ++ [I]) tk (by simpa using hlen) h2 fun I hI => ht I (by simp [hI])
        refine ⟨p :: ps, st2, .cons h3 k1, ?_⟩
        rw [List.zip_cons_cons, List.foldlM_cons]
        have hstep : imgClassifyStep N S v nclass tk (c, done, st) (I, l) = some (if p = l then c + 1 else c, done ++ [I], st1) := by
          simp [imgClassifyStep, h1]
        rw [hstep]
        show List.foldlM _ _ _ = _
        rw [k2, List.zip_cons_cons, List.countP_cons]
        congr 2
        · by_cases e : p = l
          · simp [e]; omega
          · simp [e]
        · simp
  obtain ⟨ps, st', h1, h2⟩ := key test lbls _ 0 [] _ hlen (goodAt_new (ι := ι) (F := XR)) ht
  refine ⟨ps, h1, ?_⟩
  unfold imgClassify
  simp only [h2, Option.bind_some]
  rw [if_neg (by omega), if_pos (by simpa using hlab)]
  simp

/-- A label that is not a class ends in a panic, after everything has been learned and classified. -/
theorem C91_label_panics (N : Net ι F) (S : ι) (v nclass : Int) (test : List VarSet) (lbls : List Int) (h : ∃ l ∈ lbls, ¬ (0 ≤ l ∧ l < nclass)) : imgClassify N S v nclass test lbls = none := by
  unfold imgClassify
  simp only
  cases hf : (test.zip lbls).foldlM (imgClassifyStep N S v nclass (Storer.new : Storer ι F).newTicket.1) (0, [], (Storer.new : Storer ι F).newTicket.2) with
  | none => rfl
  | some s =>
    rw [Option.bind_some]
    split
    · rfl
    · rw [if_neg]
      intro hall
      obtain ⟨l, hl, hl'⟩ := h
      rw [List.all_eq_true] at hall
      have := hall l hl
      simp only [Bool.and_eq_true, decide_eq_true_eq] at this
      exact hl' this

/-- The hypotheses of `C91_imgClassify_partial` can be met. -/
example : SiblingOrdered mixNet.ch 0 ∧ mixNet.ch 0 ≠ [] ∧ InScope mixNet 0 0 ∧ (∀ n cs w, mixNet.kind n = .sum cs w → cs ≠ []) ∧ IsComplete mixNet 0 ∧ IsDecomposable mixNet 0 ∧
    NonnegWeights mixNet 0 ∧ (∀ j : Int, 0 ≤ j → j < 2 → j ∈ (fun _ => {0, 1} : Int → Finset Int) 0) ∧
    (∀ I ∈ [VarSet.single 1 1, VarSet.empty], I 0 = none ∧ InDomain mixNet 0 (fun v => ((fun _ => {0, 1} : Int → Finset Int) v : Set Int)) I) := by
  refine ⟨mixNet_siblings, by decide, ?_, ?_, mixNet_complete, mixNet_decomposable, mixNet_weights.nonneg, ?_, ?_⟩
  · exact ⟨3, _, Relation.ReflTransGen.tail (b := 1) (.single (by decide)) (by decide), rfl, rfl⟩
  · intro n cs w h
    fin_cases n <;> simp [mixNet] at h
    rw [← h.1]; simp
  · intro j h0 h2
    have : j = 0 ∨ j = 1 := by omega
    rcases this with rfl | rfl <;> simp
  · intro I hI
    simp only [List.mem_cons, List.not_mem_nil, or_false] at hI
    rcases hI with rfl | rfl
    · refine ⟨rfl, ?_⟩
      intro w _ y hy
      simp only [VarSet.single] at hy
      split at hy
      · cases hy; simp
      · cases hy
    · exact ⟨rfl, fun w _ y hy => by cases hy⟩

end Gospn
