import Verif.Model.Build
import Verif.Proofs.Spn
import Verif.Props.Semantics
/-!
Property C129: networks built by hand.
-/
set_option linter.unusedSectionVars false
set_option linter.unusedSimpArgs false
namespace Gospn
open Spec
variable {ι F : Type} [DecidableEq ι]

/-- The children that a program gives to `p`, in order. -/
def Spec.childrenGiven (p : ι) (ops : List (BuildOp ι F)) : List ι :=
  ops.filterMap fun op => match op with
    | .addChild q c => if q = p then some c else none
    | .addChildW q c _ => if q = p then some c else none
    | .addWeight _ _ => none

/-- The weights that a program gives to `p`, in order. -/
def Spec.weightsGiven (p : ι) (ops : List (BuildOp ι F)) : List F :=
  ops.filterMap fun op => match op with
    | .addChild _ _ => none
    | .addChildW q _ w => if q = p then some w else none
    | .addWeight q w => if q = p then some w else none

/-- The edge that a call adds. -/
def Spec.edgeOf : BuildOp ι F → Option (ι × ι)
  | .addChild p c => some (p, c)
  | .addChildW p c _ => some (p, c)
  | .addWeight _ _ => none

/-- Nodes as `NewSum` and `NewProduct` return them. -/
def Spec.Blank (N : Net ι F) : Prop := ∀ n, match N.kind n with
  | .sum cs w => cs = [] ∧ w = []
  | .product cs => cs = []
  | .leaf _ => True

theorem build1_kind {N N' : Net ι F} {op : BuildOp ι F} (h : N.build1 op = some N') (p : ι) :
    N'.kind p = match N.kind p with
      | .sum cs w => .sum (cs ++ childrenGiven p [op]) (w ++ weightsGiven p [op])
      | .product cs => .product (cs ++ childrenGiven p [op])
      | .leaf l => .leaf l := by
  cases op with
  | addChild q c =>
    simp only [Net.build1, Net.addChild] at h
    by_cases hq : q = p
    · subst hq
      cases hk : N.kind q <;> simp [hk] at h <;> subst h <;> simp [childrenGiven, weightsGiven]
    · cases hk : N.kind q <;> simp [hk] at h <;> subst h <;> simp only [childrenGiven, weightsGiven] <;>
        cases hk' : N.kind p <;> simp [Function.update_of_ne (Ne.symm hq), hk', hq]
  | addWeight q w =>
    simp only [Net.build1, Net.addWeight] at h
    by_cases hq : q = p
    · subst hq
      cases hk : N.kind q <;> simp [hk] at h <;> subst h <;> simp [childrenGiven, weightsGiven]
    · cases hk : N.kind q <;> simp [hk] at h <;> subst h <;> simp only [childrenGiven, weightsGiven] <;>
        cases hk' : N.kind p <;> simp [Function.update_of_ne (Ne.symm hq), hk', hq]
  | addChildW q c w =>
    simp only [Net.build1, Net.addChild, Net.addWeight] at h
    by_cases hq : q = p
    · subst hq
      cases hk : N.kind q <;> simp [hk] at h <;> subst h <;> simp [childrenGiven, weightsGiven]
    · cases hk : N.kind q <;> simp [hk] at h <;> subst h <;> simp only [childrenGiven, weightsGiven] <;>
        cases hk' : N.kind p <;> simp [Function.update_of_ne (Ne.symm hq), hk', hq]

theorem childrenGiven_cons (p : ι) (op : BuildOp ι F) (ops : List (BuildOp ι F)) : childrenGiven p (op :: ops) = childrenGiven p [op] ++ childrenGiven p ops := by
  unfold childrenGiven
  rw [← List.filterMap_append]
  rfl

theorem weightsGiven_cons (p : ι) (op : BuildOp ι F) (ops : List (BuildOp ι F)) : weightsGiven p (op :: ops) = weightsGiven p [op] ++ weightsGiven p ops := by
  unfold weightsGiven
  rw [← List.filterMap_append]
  rfl

theorem build_cons {N N' : Net ι F} {op : BuildOp ι F} {ops : List (BuildOp ι F)} (h : N.build (op :: ops) = some N') : ∃ N1, N.build1 op = some N1 ∧ N1.build ops = some N' := by
  unfold Net.build at h
  rw [List.foldlM_cons] at h
  cases h1 : N.build1 op with
  | none => rw [h1] at h; cases h
  | some N1 => rw [h1] at h; exact ⟨N1, rfl, h⟩

/-- C129: whatever the calls and their order, every node ends up with the children and the weights that were given to it, in the order in which they were given. -/
theorem C129_built (N N' : Net ι F) (ops : List (BuildOp ι F)) (h : N.build ops = some N') (p : ι) :
    N'.kind p = match N.kind p with
      | .sum cs w => .sum (cs ++ childrenGiven p ops) (w ++ weightsGiven p ops)
      | .product cs => .product (cs ++ childrenGiven p ops)
      | .leaf l => .leaf l := by
  induction ops generalizing N with
  | nil =>
    simp only [Net.build, List.foldlM_nil] at h
    cases h
    cases hk : N'.kind p <;> simp [childrenGiven, weightsGiven]
  | cons op ops ih =>
    obtain ⟨N1, h1, h2⟩ := build_cons h
    rw [ih N1 h2, build1_kind h1 p, childrenGiven_cons p op ops, weightsGiven_cons p op ops]
    cases hk : N.kind p <;> simp

/-- C129: the calls for different nodes can be made in any order. -/
theorem C129_order (N N1 N2 : Net ι F) (ops1 ops2 : List (BuildOp ι F)) (h1 : N.build ops1 = some N1) (h2 : N.build ops2 = some N2)
    (hc : ∀ p, childrenGiven p ops1 = childrenGiven p ops2) (hw : ∀ p, weightsGiven p ops1 = weightsGiven p ops2) : N1 = N2 := by
  obtain ⟨k1⟩ := N1
  obtain ⟨k2⟩ := N2
  congr 1
  funext p
  have e1 := C129_built N _ ops1 h1 p
  have e2 := C129_built N _ ops2 h2 p
  rw [hc, hw] at e1
  exact e1.trans e2.symm

/-- C129: a sum whose children are all given with `AddChildW` has them with the weights they were given with. -/
theorem C129_pairs (N N' : Net ι F) (ops : List (BuildOp ι F)) (h : N.build ops = some N') (p : ι) (hk : N.kind p = .sum [] [])
    (ho : ∀ op ∈ ops, (∀ c, op ≠ .addChild p c) ∧ ∀ w, op ≠ .addWeight p w) :
    ∃ pairs : List (ι × F), pairs = (ops.filterMap fun op => match op with
        | .addChildW q c w => if q = p then some (c, w) else none
        | _ => none) ∧ N'.kind p = .sum (pairs.map Prod.fst) (pairs.map Prod.snd) := by
  refine ⟨_, rfl, ?_⟩
  have e := C129_built N N' ops h p
  rw [hk] at e
  rw [e]
  have key : ∀ ops : List (BuildOp ι F), (∀ op ∈ ops, (∀ c, op ≠ .addChild p c) ∧ ∀ w, op ≠ .addWeight p w) →
      childrenGiven p ops = (ops.filterMap fun op => match op with
        | .addChildW q c w => if q = p then some (c, w) else none
        | _ => none).map Prod.fst ∧ weightsGiven p ops = (ops.filterMap fun op => match op with
        | .addChildW q c w => if q = p then some (c, w) else none
        | _ => none).map Prod.snd := by
    intro ops
    induction ops with
    | nil => intro _; exact ⟨rfl, rfl⟩
    | cons op ops ih =>
      intro ho
      obtain ⟨i1, i2⟩ := ih fun o h => ho o (by simp [h])
      have h0 := ho op (by simp)
      rw [childrenGiven_cons p op ops, weightsGiven_cons p op ops, i1, i2, List.filterMap_cons]
      cases op with
      | addChild q c =>
        have : q ≠ p := fun h => h0.1 c (by rw [h])
        simp [childrenGiven, weightsGiven, this]
      | addWeight q w =>
        have : q ≠ p := fun h => h0.2 w (by rw [h])
        simp [childrenGiven, weightsGiven, this]
      | addChildW q c w =>
        by_cases hq : q = p <;> simp [childrenGiven, weightsGiven, hq]
  obtain ⟨e1, e2⟩ := key ops ho
  simp only [List.nil_append]
  rw [e1, e2]

/-! ### Cycles -/

theorem build1_ch {N N' : Net ι F} {op : BuildOp ι F} (h : N.build1 op = some N') (p : ι) : N'.ch p = N.ch p ++ childrenGiven p [op] := by
  have e := build1_kind h p
  unfold Net.ch
  rw [e]
  cases hk : N.kind p with
  | sum cs w => rfl
  | product cs => rfl
  | leaf l =>
    have : childrenGiven p [op] = [] := by
      cases op with
      | addChild q c =>
        by_cases hq : q = p
        · subst hq
          simp [Net.build1, Net.addChild, hk] at h
        · simp [childrenGiven, hq]
      | addWeight q w => simp [childrenGiven]
      | addChildW q c w =>
        by_cases hq : q = p
        · subst hq
          simp [Net.build1, hk] at h
        · simp [childrenGiven, hq]
    rw [this]
    rfl

theorem mem_childrenGiven_one {p c : ι} {op : BuildOp ι F} : c ∈ childrenGiven p [op] ↔ edgeOf op = some (p, c) := by
  cases op with
  | addChild q d =>
    by_cases hq : q = p
    · simp [childrenGiven, edgeOf, hq, eq_comm]
    · simp [childrenGiven, edgeOf, hq]
  | addWeight q w => simp [childrenGiven, edgeOf]
  | addChildW q d w =>
    by_cases hq : q = p
    · simp [childrenGiven, edgeOf, hq, eq_comm]
    · simp [childrenGiven, edgeOf, hq]

theorem acyclic_no_loop {ch : ι → List ι} (h : Acyclic ch) {p c : ι} (hc : c ∈ ch p) : ¬ Reach ch c p := by
  obtain ⟨rank, hr⟩ := h
  intro hp
  have : ∀ a b, Reach ch a b → rank b ≤ rank a := by
    intro a b hab
    induction hab with
    | refl => exact le_rfl
    | tail _ h ih => exact le_trans (hr _ _ h).le ih
  have h1 := this _ _ hp
  have h2 := hr p c hc
  omega

open Classical in
theorem build1_acyclic {N N' : Net ι F} {op : BuildOp ι F} (h : N.build1 op = some N') (hac : Acyclic N.ch) (hno : ∀ p c, edgeOf op = some (p, c) → ¬ Reach N.ch c p) : Acyclic N'.ch := by
  cases he : edgeOf op with
  | none =>
    refine ⟨hac.choose, fun u v hv => ?_⟩
    rw [build1_ch h, List.mem_append, mem_childrenGiven_one, he] at hv
    rcases hv with hv | hv
    · exact hac.choose_spec u v hv
    · cases hv
  | some e =>
    obtain ⟨p, c⟩ := e
    obtain ⟨rank, hr⟩ := hac
    have hn := hno p c he
    refine ⟨fun u => rank u + if Reach N.ch u p then rank c + 1 else 0, fun u v hv => ?_⟩
    rw [build1_ch h, List.mem_append, mem_childrenGiven_one, he] at hv
    rcases hv with hv | hv
    · have h1 := hr u v hv
      by_cases hvp : Reach N.ch v p
      · have hup : Reach N.ch u p := Relation.ReflTransGen.head hv hvp
        simp only [hvp, hup, if_true]
        omega
      · simp only [hvp, if_false]
        omega
    · cases hv
      have : Reach N.ch p p := Relation.ReflTransGen.refl
      simp only [hn, this, if_true, if_false]
      omega

/-- C129: a program builds a network without cycles exactly if no call makes a node a child of one that it is above of already. -/
theorem C129_acyclic (N N' : Net ι F) (ops : List (BuildOp ι F)) (hac : Acyclic N.ch) (h : N.build ops = some N') :
    Acyclic N'.ch ↔ ∀ pre op post N1 p c, ops = pre ++ op :: post → N.build pre = some N1 → edgeOf op = some (p, c) → ¬ Reach N1.ch c p := by
  constructor
  · intro hac' pre op post N1 p c hops h1 he hreach
    subst hops
    have hb : (N1.build (op :: post)) = some N' := by
      unfold Net.build at h h1 ⊢
      rw [List.foldlM_append, h1] at h
      exact h
    obtain ⟨N2, h2, h3⟩ := build_cons hb
    have mono : ∀ (ops : List (BuildOp ι F)) (A B : Net ι F), A.build ops = some B → ∀ u, ∀ v ∈ A.ch u, v ∈ B.ch u := by
      intro ops
      induction ops with
      | nil =>
        intro A B hAB u v hv
        simp only [Net.build, List.foldlM_nil] at hAB
        cases hAB
        exact hv
      | cons op ops ih =>
        intro A B hAB u v hv
        obtain ⟨A1, g1, g2⟩ := build_cons hAB
        refine ih A1 B g2 u v ?_
        rw [build1_ch g1]
        exact List.mem_append_left _ hv
    have hc : c ∈ N'.ch p := mono post N2 N' h3 p c (by rw [build1_ch h2]; exact List.mem_append_right _ (mem_childrenGiven_one.2 he))
    refine acyclic_no_loop hac' hc ?_
    exact Relation.ReflTransGen.mono (fun a b hab => mono (op :: post) N1 N' hb a b hab) _ _ hreach
  · intro hno
    induction ops generalizing N with
    | nil =>
      simp only [Net.build, List.foldlM_nil] at h
      cases h
      exact hac
    | cons op ops ih =>
      obtain ⟨N1, h1, h2⟩ := build_cons h
      refine ih N1 (build1_acyclic h1 hac fun p c he => hno [] op ops N p c rfl rfl he) h2 ?_
      intro pre op' post N2 p c hops g1 he
      refine hno (op :: pre) op' post N2 p c (by rw [hops]; rfl) ?_ he
      unfold Net.build at g1 ⊢
      rw [List.foldlM_cons, h1]
      exact g1

/-! ### Values -/

section
variable [Fintype ι] [GoFloat F]

theorem weighted_some_iff {vs w : List F} : weighted vs w ≠ none ↔ vs.length ≤ w.length := by
  induction vs generalizing w with
  | nil => simp [weighted]
  | cons v vs ih =>
    cases w with
    | nil => simp [weighted]
    | cons x w => simp only [weighted, ne_eq, Option.map_eq_none_iff, List.length_cons, Nat.add_le_add_iff_right]; exact ih

theorem weightedMax_some_iff {vs w : List F} : weightedMax vs w ≠ none ↔ vs.length ≤ w.length := by
  induction vs generalizing w with
  | nil => simp [weightedMax]
  | cons v vs ih =>
    cases w with
    | nil => simp [weightedMax]
    | cons x w => simp only [weightedMax, ne_eq, Option.map_eq_none_iff, List.length_cons, Nat.add_le_add_iff_right]; exact ih

theorem logSumExp_some_iff {us : List F} : logSumExp us ≠ none ↔ us ≠ [] := by
  cases us with
  | nil => simp [logSumExp]
  | cons u us =>
    simp only [logSumExp]
    split <;> simp

theorem weighted_len : ∀ (vs w us : List F), weighted vs w = some us → us.length = vs.length := by
  intro vs
  induction vs with
  | nil => intro w us h; simp [weighted] at h; subst h; rfl
  | cons v vs ih =>
    intro w us h
    cases w with
    | nil => simp [weighted] at h
    | cons x w =>
      simp only [weighted, Option.map_eq_some_iff] at h
      obtain ⟨us', h1, rfl⟩ := h
      simp [ih w us' h1]

/-- **C129**: on a network without cycles, `Value` returns exactly if every sum below has at least one child and as many weights as children, and every leaf below has a value for the evidence. Weights
beyond the children do no harm. -/
theorem C129_value (N : Net ι F) (S : ι) (I : VarSet) (hac : Acyclic N.ch) :
    N.value I S ≠ none ↔ ∀ n, Reach N.ch S n → match N.kind n with
      | .sum cs w => cs ≠ [] ∧ cs.length ≤ w.length
      | .product _ => True
      | .leaf l => l.value I ≠ none := by
  constructor
  · intro hv n hn
    have hvn : N.value I n ≠ none := fun h => hv (Net.value_none_up hac hn h)
    rw [Net.value_unfold hac] at hvn
    cases hk : N.kind n with
    | product cs => trivial
    | leaf l =>
      simp only [Net.valueStep, hk] at hvn
      exact hvn
    | sum cs w =>
      simp only [Net.valueStep, hk] at hvn
      cases hm : cs.mapM (N.value I) with
      | none => rw [hm] at hvn; exact absurd rfl hvn
      | some vs =>
        rw [hm, Option.bind_some] at hvn
        have hlen : vs.length = cs.length := by
          have : ∀ (l : List ι) (vs : List F), l.mapM (N.value I) = some vs → vs.length = l.length := by
            intro l
            induction l with
            | nil => intro vs h; simp at h; subst h; rfl
            | cons a l ih =>
              intro vs h
              rw [List.mapM_cons] at h
              cases ha : N.value I a with
              | none => rw [ha] at h; cases h
              | some x =>
                cases hl : l.mapM (N.value I) with
                | none => rw [ha, hl] at h; cases h
                | some ys =>
                  rw [ha, hl] at h
                  cases h
                  simp [ih ys hl]
          exact this cs vs hm
        cases hw : weighted vs w with
        | none => rw [hw] at hvn; exact absurd rfl hvn
        | some us =>
          rw [hw, Option.bind_some] at hvn
          have h1 := weighted_some_iff.1 (show weighted vs w ≠ none by rw [hw]; simp)
          have h2 := logSumExp_some_iff.1 hvn
          have h3 := weighted_len vs w us hw
          refine ⟨fun hcs => h2 ?_, by omega⟩
          subst hcs
          exact List.length_eq_zero_iff.1 (by simpa [hlen] using h3)
  · intro hall
    have key : ∀ n, Reach N.ch S n → N.value I n ≠ none := by
      obtain ⟨rank, hr⟩ := id hac
      intro n
      induction hn : rank n using Nat.strong_induction_on generalizing n with
      | _ k ih =>
        intro hreach
        have ihc : ∀ c ∈ N.ch n, ∃ x, N.value I c = some x := fun c hc =>
          Option.ne_none_iff_exists'.1 (ih (rank c) (by rw [← hn]; exact hr n c hc) c rfl (Relation.ReflTransGen.tail hreach hc))
        have : Nonempty F := ⟨GoFloat.ofInt 0⟩
        choose! g hg using ihc
        rw [Net.value_unfold hac]
        have h := hall n hreach
        unfold Net.valueStep
        cases hk : N.kind n with
        | leaf l => rw [hk] at h; exact h
        | product cs =>
          have hcs : N.ch n = cs := by simp [Net.ch, hk]
          simp only [mapM_eq_some (fun c hc => hg c (hcs ▸ hc)), Option.map_some]
          simp
        | sum cs w =>
          rw [hk] at h
          have hcs : N.ch n = cs := by simp [Net.ch, hk]
          simp only [mapM_eq_some (fun c hc => hg c (hcs ▸ hc)), Option.bind_some]
          obtain ⟨us, hus⟩ := Option.ne_none_iff_exists'.1 (weighted_some_iff.2 (show (cs.map g).length ≤ w.length by simpa using h.2))
          rw [hus, Option.bind_some]
          refine logSumExp_some_iff.2 fun h0 => h.1 ?_
          subst h0
          have := weighted_len _ _ _ hus
          simpa using this.symm
    exact key S Relation.ReflTransGen.refl

/-- C129 for `Max`: a child without a weight makes it panic, for every evidence. -/
theorem C129_max_unweighted (N : Net ι F) (S : ι) (I : VarSet) (hac : Acyclic N.ch) (n : ι) (hn : Reach N.ch S n) (cs : List ι) (w : List F) (hk : N.kind n = .sum cs w) (hlen : w.length < cs.length) :
    N.max I S = none := by
  refine Net.max_none_up hac hn ?_
  rw [Net.max_unfold hac]
  simp only [Net.maxStep, hk]
  cases hm : cs.mapM (N.max I) with
  | none => rfl
  | some vs =>
    have hl : vs.length = cs.length := by
      have : ∀ (l : List ι) (vs : List F), l.mapM (N.max I) = some vs → vs.length = l.length := by
        intro l
        induction l with
        | nil => intro vs h; simp at h; subst h; rfl
        | cons a l ih =>
          intro vs h
          rw [List.mapM_cons] at h
          cases ha : N.max I a with
          | none => rw [ha] at h; cases h
          | some x =>
            cases hl : l.mapM (N.max I) with
            | none => rw [ha, hl] at h; cases h
            | some ys =>
              rw [ha, hl] at h
              cases h
              simp [ih ys hl]
      exact this cs vs hm
    have : weightedMax vs w = none := by
      by_contra h
      have := weightedMax_some_iff.1 h
      omega
    rw [Option.bind_some, this]
    rfl

/-- C129: below a cycle `Value` does not return (it calls itself without end). -/
theorem C129_cycle (N : Net ι F) (S n c : ι) (I : VarSet) (hn : Reach N.ch S n) (hc : c ∈ N.ch n) (hl : Reach N.ch c n) : N.value I S = none := by
  have step : ∀ k a, fuelRec (N.valueStep I) none k a ≠ none → ∀ b ∈ N.ch a, ∃ j < k, fuelRec (N.valueStep I) none j b ≠ none := by
    intro k a ha b hb
    cases k with
    | zero => exact absurd rfl ha
    | succ k =>
      refine ⟨k, by omega, fun h0 => ha ?_⟩
      show N.valueStep I (fuelRec (N.valueStep I) none k) a = none
      generalize fuelRec (N.valueStep I) none k = rec at h0
      unfold Net.valueStep
      cases hk : N.kind a with
      | leaf l => simp [Net.ch, hk] at hb
      | product cs =>
        simp only [Net.ch, hk] at hb
        simp only [mapM_eq_none hb h0, Option.map_none]
      | sum cs w =>
        simp only [Net.ch, hk] at hb
        simp only [mapM_eq_none hb h0, Option.bind_none]
  have steps : ∀ a b, Reach N.ch a b → ∀ k, fuelRec (N.valueStep I) none k a ≠ none → ∃ j ≤ k, fuelRec (N.valueStep I) none j b ≠ none := by
    intro a b hab
    induction hab with
    | refl => intro k h; exact ⟨k, le_rfl, h⟩
    | tail _ hb ih =>
      intro k h
      obtain ⟨j, hj, h1⟩ := ih k h
      obtain ⟨i, hi, h2⟩ := step j _ h1 _ hb
      exact ⟨i, by omega, h2⟩
  have loop : ∀ k, fuelRec (N.valueStep I) none k n = none := by
    intro k
    induction k using Nat.strong_induction_on with
    | _ k ih =>
      by_contra h
      obtain ⟨j, hj, h1⟩ := step k n h c hc
      obtain ⟨i, hi, h2⟩ := steps c n hl j h1
      exact h2 (ih i (by omega))
  by_contra h
  obtain ⟨j, _, h1⟩ := steps S n hn _ h
  exact h1 (loop j)

/-- **C129**: from new nodes, a program that gives children to sums only with `AddChildW`, and at least one to every sum, and never makes a node a child of one it is above of, builds a network on which `Value` returns for every
evidence that the leaves have values for. -/
theorem C129_usable (N N' : Net ι F) (S : ι) (ops : List (BuildOp ι F)) (hN : Blank N) (h : N.build ops = some N')
    (ho : ∀ p, (∃ cs w, N.kind p = .sum cs w) → (∀ op ∈ ops, (∀ c, op ≠ .addChild p c) ∧ ∀ w, op ≠ .addWeight p w) ∧ ∃ c w, .addChildW p c w ∈ ops)
    (hc : ∀ pre op post N1 p c, ops = pre ++ op :: post → N.build pre = some N1 → edgeOf op = some (p, c) → ¬ Reach N1.ch c p)
    (I : VarSet) (hl : ∀ n l, N.kind n = .leaf l → l.value I ≠ none) : N'.value I S ≠ none := by
  have hac0 : Acyclic N.ch := by
    refine ⟨fun _ => 0, fun u c hc => ?_⟩
    have hb := hN u
    unfold Net.ch at hc
    cases hk : N.kind u with
    | sum cs w => rw [hk] at hb; simp [hk, hb.1] at hc
    | product cs => rw [hk] at hb; simp only at hb; simp [hk, hb] at hc
    | leaf l => simp [hk] at hc
  have hac := (C129_acyclic N N' ops hac0 h).2 hc
  refine (C129_value N' S I hac).2 fun n _ => ?_
  have hb := hN n
  cases hk : N.kind n with
  | leaf l =>
    have := C129_built N N' ops h n
    rw [hk] at this
    rw [this]
    exact hl n l hk
  | product cs =>
    have := C129_built N N' ops h n
    rw [hk] at this
    rw [this]
    trivial
  | sum cs w =>
    rw [hk] at hb
    obtain ⟨rfl, rfl⟩ := hb
    obtain ⟨h1, c, x, h2⟩ := ho n ⟨_, _, hk⟩
    obtain ⟨pairs, hp, h3⟩ := C129_pairs N N' ops h n hk h1
    rw [h3]
    refine ⟨?_, by simp⟩
    intro h0
    have : (c, x) ∈ pairs := by
      rw [hp, List.mem_filterMap]
      exact ⟨_, h2, by simp⟩
    rw [List.map_eq_nil_iff.1 h0] at this
    cases this

end

/-- A mixture of two indicators and the program that builds it. -/
def blankMix : Net (Fin 3) XR := ⟨![.sum [] [], .leaf (.indicator 0 0), .leaf (.indicator 0 1)]⟩

noncomputable def mixOps : List (BuildOp (Fin 3) XR) := [.addChildW 0 1 (.fin (1 / 4)), .addChildW 0 2 (.fin (3 / 4))]

theorem blankMix_leaf : ∀ p : Fin 3, (∃ cs w, blankMix.kind p = .sum cs w) → p = 0 := by
  rintro p ⟨cs, w, h⟩
  fin_cases p
  · rfl
  · simp [blankMix] at h
  · simp [blankMix] at h

/-- The hypotheses of `C129_usable`, `C129_built`, `C129_pairs`. -/
example : Blank blankMix ∧ (∃ N', blankMix.build mixOps = some N') ∧
    (∀ p, (∃ cs w, blankMix.kind p = .sum cs w) → (∀ op ∈ mixOps, (∀ c, op ≠ .addChild p c) ∧ ∀ w, op ≠ .addWeight p w) ∧ ∃ c w, .addChildW p c w ∈ mixOps) ∧
    (∀ (I : VarSet) n l, blankMix.kind n = .leaf l → l.value I ≠ none) ∧
    (∀ pre op post N1 p c, mixOps = pre ++ op :: post → blankMix.build pre = some N1 → edgeOf op = some (p, c) → ¬ Reach N1.ch c p) := by
  refine ⟨?_, ?_, ?_, ?_, ?_⟩
  · intro n
    fin_cases n <;> simp [blankMix]
  · exact ⟨_, rfl⟩
  · intro p hp
    obtain rfl := blankMix_leaf p hp
    exact ⟨by simp [mixOps], 1, .fin (1 / 4), List.mem_cons_self⟩
  · intro I n l h
    fin_cases n <;> simp [blankMix] at h <;> subst h <;> simp only [Leaf.value] <;> split <;> simp <;> split <;> simp
  · intro pre op post N1 p c hops h1 he
    have hop : op ∈ mixOps := by rw [hops]; simp
    have hpc : p = 0 ∧ c ≠ 0 := by
      simp only [mixOps, List.mem_cons, List.not_mem_nil, or_false] at hop
      rcases hop with rfl | rfl <;> simp only [edgeOf, Option.some.injEq, Prod.mk.injEq] at he <;> obtain ⟨rfl, rfl⟩ := he <;> decide
    obtain ⟨rfl, hc⟩ := hpc
    have hleaf : ∃ l, blankMix.kind c = .leaf l := by
      fin_cases c
      · exact absurd rfl hc
      · exact ⟨_, rfl⟩
      · exact ⟨_, rfl⟩
    obtain ⟨l, hl⟩ := hleaf
    have := C129_built blankMix N1 pre h1 c
    rw [hl] at this
    intro hr
    rcases Relation.ReflTransGen.cases_head hr with h | ⟨d, hd, _⟩
    · exact hc h
    · simp [Net.ch, this] at hd

/-- The hypotheses of `C129_max_unweighted`: a child added without a weight. -/
example : ∃ N', blankMix.build [.addChild 0 1] = some N' ∧ Acyclic N'.ch ∧ ∃ cs w, N'.kind 0 = .sum cs w ∧ w.length < cs.length := by
  refine ⟨_, rfl, ⟨fun n => if n = 0 then 1 else 0, ?_⟩, [1], [], rfl, by simp⟩
  intro u c hc
  fin_cases u
  · have : c = 1 := by simpa [Net.ch, blankMix] using hc
    subst this
    decide
  · simp [Net.ch, blankMix, Function.update] at hc
  · simp [Net.ch, blankMix, Function.update] at hc

/-- The hypotheses of `C129_cycle`: a product that is its own child. -/
example : ∃ N', (⟨fun _ => .product []⟩ : Net (Fin 1) XR).build [.addChild 0 0] = some N' ∧ (0 : Fin 1) ∈ N'.ch 0 ∧ Reach N'.ch 0 0 :=
  ⟨_, rfl, by simp [Net.ch], Relation.ReflTransGen.refl⟩

/-- The hypotheses of `C129_order`: the same calls in another order, for different nodes. -/
example : ∃ N1 N2, (⟨fun _ => .product []⟩ : Net (Fin 3) XR).build [.addChild 0 1, .addChild 1 2] = some N1 ∧ (⟨fun _ => .product []⟩ : Net (Fin 3) XR).build [.addChild 1 2, .addChild 0 1] = some N2 ∧
    ∀ p, childrenGiven p ([.addChild 0 1, .addChild 1 2] : List (BuildOp (Fin 3) XR)) = childrenGiven p ([.addChild 1 2, .addChild 0 1] : List (BuildOp (Fin 3) XR)) := by
  refine ⟨_, _, rfl, rfl, fun p => ?_⟩
  fin_cases p <;> rfl

end Gospn
