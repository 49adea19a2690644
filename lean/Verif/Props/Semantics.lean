import Verif.Proofs.MapStore
import Verif.Proofs.Marginal
import Verif.Props.Infer
/-!
Properties C06, C08 and C09: what the numbers and states computed on a valid SPN mean, in exact arithmetic (`XR`).
-/
set_option linter.unusedSectionVars false
namespace Gospn
open Spec GoFloat

variable {ι : Type} [DecidableEq ι] [Fintype ι]

/-! ### A concrete valid SPN for the examples -/

/-- A sum of two products over the variables 0 and 1. -/
noncomputable def mixNet : Net (Fin 7) XR := ⟨![.sum [1, 2] [.fin (1 / 4), .fin (3 / 4)], .product [3, 4], .product [5, 6],
  .leaf (.multinomial [0] 0 [.fin (1 / 2), .fin (1 / 2)] 1 (.fin (1 / 2))), .leaf (.multinomial [1] 1 [.fin (1 / 3), .fin (2 / 3)] 1 (.fin (2 / 3))),
  .leaf (.indicator 0 0), .leaf (.multinomial [1] 1 [.fin 1, .fin 0] 0 (.fin 1))]⟩

/-- In a graded graph no child is reachable from a sibling. -/
theorem siblingOrdered_of_rank {ch : ι → List ι} {G : ι} (rank : ι → Nat) (h : ∀ u, ∀ v ∈ ch u, rank v + 1 = rank u) : SiblingOrdered ch G := by
  intro w _
  have hle : ∀ {a b}, Reach ch a b → a = b ∨ rank b < rank a := by
    intro a b hr
    induction hr with
    | refl => exact Or.inl rfl
    | tail _ hc ih =>
      have := h _ _ hc
      rcases ih with rfl | ih
      · right; omega
      · right; omega
  refine List.Pairwise.imp_of_mem (R := fun _ _ => True) ?_ (List.pairwise_iff_getElem.2 (fun _ _ _ _ _ => trivial))
  intro a b ha hb _ hne hr
  rcases hle hr with h1 | h1
  · exact hne h1.symm
  · have h2 := h w a ha
    have h3 := h w b hb
    omega

theorem mixNet_rank (u v : Fin 7) (h : v ∈ mixNet.ch u) : (![2, 1, 1, 0, 0, 0, 0] : Fin 7 → Nat) v + 1 = (![2, 1, 1, 0, 0, 0, 0] : Fin 7 → Nat) u := by
  fin_cases u <;> simp [mixNet, Net.ch] at h <;> (try rcases h with rfl | rfl) <;> simp

theorem mixNet_acyclic : Acyclic mixNet.ch :=
  ⟨![2, 1, 1, 0, 0, 0, 0], fun u v h => by have := mixNet_rank u v h; omega⟩

theorem mixNet_siblings : SiblingOrdered mixNet.ch 0 := siblingOrdered_of_rank _ mixNet_rank

theorem InScope.of_node {N : Net ι XR} {n : ι} (h : ∀ l, N.kind n ≠ .leaf l) (v : Int) : InScope N n v ↔ ∃ c ∈ N.ch n, InScope N c v := by
  constructor
  · intro hs
    rcases InScope.inv hs with ⟨l, hl, _⟩ | ⟨c, hc, hs⟩
    · exact absurd hl (h l)
    · exact ⟨c, hc, hs⟩
  · rintro ⟨c, hc, hs⟩; exact InScope.child hc hs

theorem mixNet_scope1 (v : Int) : InScope mixNet 1 v ↔ v = 0 ∨ v = 1 := by
  rw [InScope.of_node (by intro l h; cases h)]
  have h : mixNet.ch 1 = [3, 4] := rfl
  have h3 : InScope mixNet 3 v ↔ _ := InScope.of_leaf (N := mixNet) (n := 3) rfl
  have h4 : InScope mixNet 4 v ↔ _ := InScope.of_leaf (N := mixNet) (n := 4) rfl
  simp [h, h3, h4, leafVar, eq_comm]

theorem mixNet_scope2 (v : Int) : InScope mixNet 2 v ↔ v = 0 ∨ v = 1 := by
  rw [InScope.of_node (by intro l h; cases h)]
  have h : mixNet.ch 2 = [5, 6] := rfl
  have h3 : InScope mixNet 5 v ↔ _ := InScope.of_leaf (N := mixNet) (n := 5) rfl
  have h4 : InScope mixNet 6 v ↔ _ := InScope.of_leaf (N := mixNet) (n := 6) rfl
  simp [h, h3, h4, leafVar, eq_comm]

theorem mixNet_complete : IsComplete mixNet 0 := by
  intro n _ cs w hk c hc d hd v h
  fin_cases n <;> simp [mixNet] at hk
  obtain ⟨rfl, rfl⟩ := hk
  simp at hc hd
  rcases hc with rfl | rfl <;> rcases hd with rfl | rfl <;> simp_all [mixNet_scope1, mixNet_scope2]

theorem mixNet_decomposable : IsDecomposable mixNet 0 := by
  intro n _ cs hk
  fin_cases n <;> simp [mixNet] at hk <;> subst hk
  · have h3 := fun v => InScope.of_leaf (N := mixNet) (n := 3) (v := v) rfl
    have h4 := fun v => InScope.of_leaf (N := mixNet) (n := 4) (v := v) rfl
    simp [h3, h4, leafVar]
  · have h3 := fun v => InScope.of_leaf (N := mixNet) (n := 5) (v := v) rfl
    have h4 := fun v => InScope.of_leaf (N := mixNet) (n := 6) (v := v) rfl
    simp [h3, h4, leafVar]

theorem mixNet_weights : DistWeights mixNet 0 := by
  intro n _ cs w hk
  fin_cases n <;> simp [mixNet] at hk
  obtain ⟨rfl, rfl⟩ := hk
  exact ⟨[1 / 4, 3 / 4], by simp, by simp, by norm_num, by norm_num⟩

theorem mixNet_discrete : DiscreteLeaves mixNet 0 (fun _ => {0, 1}) := by
  intro n l _ hk
  fin_cases n <;> simp [mixNet] at hk <;> subst hk
  · exact ⟨[1 / 2, 1 / 2], by simp, by norm_num, by norm_num, fun x => by simp; omega⟩
  · exact ⟨[1 / 3, 2 / 3], by simp, by norm_num, by norm_num, fun x => by simp; omega⟩
  · simp [DiscreteLeaf]
  · exact ⟨[1, 0], by simp, by norm_num, by norm_num, fun x => by simp; omega⟩

/-! ### C06 -/

/-- The probability of evidence is the sum over its completions for any non-negative weights. -/
theorem C06_value_marginal_unnormalised (N : Net ι XR) (S : ι) (dom : Int → Finset Int) (I : VarSet) (hac : Acyclic N.ch) (hcomp : IsComplete N S)
    (hdec : IsDecomposable N S) (hw : NonnegWeights N S) (hl : DiscreteLeaves N S dom) (hI : InDomain N S (fun v => (dom v : Set Int)) I) :
    ∃ (x : XR) (L : Finset VarSet) (f : VarSet → XR), N.value I S = some x ∧ IsLogProb x ∧ (∀ J, J ∈ L ↔ Completion N S dom I J) ∧
      (∀ J ∈ L, N.value J S = some (f J) ∧ IsLogProb (f J)) ∧ unlog x = ∑ J ∈ L, unlog (f J) := by
  obtain ⟨vs, hnd, hvs, hvc⟩ := completions_list hI
  obtain ⟨x, h1, h2⟩ := Net.value_ok hac hw (discrete_eval hl hI) S Relation.ReflTransGen.refl
  have hf : ∀ J ∈ completions dom vs I, ∃ y, N.value J S = some y ∧ IsLogProb y := by
    intro J hJ
    have hJ' := (hvc J).1 hJ
    refine Net.value_ok hac hw (discrete_eval hl ?_) S Relation.ReflTransGen.refl
    intro v hs y hy
    obtain ⟨z, hz, hJz⟩ := ((hJ' v).1 hs).1
    rw [hJz] at hy; cases hy; exact hz
  choose! f hf using hf
  refine ⟨x, completions dom vs I, f, h1, h2, hvc, hf, ?_⟩
  have := Net.prob_completions hac hcomp hdec hw hl hI _ hvc
  simp only [Net.prob, h1, Option.map_some, Option.getD_some] at this
  rw [this]
  exact Finset.sum_congr rfl (fun J hJ => by rw [(hf J hJ).1]; rfl)

/-- C06: on a complete and decomposable network without cycles, with weights that form a probability vector at every sum node and discrete leaves,
for any evidence within the domains: `S.Value(I)` returns a log-probability, there are finitely many completions of `I`, each has a log-probability as
value, and the probability of `I` is the sum of the probabilities of its completions. If the evidence sets no variable of `S`, `S.Value(I)` is exactly 0. -/
theorem C06_value_marginal (N : Net ι XR) (S : ι) (dom : Int → Finset Int) (I : VarSet) (hac : Acyclic N.ch) (hcomp : IsComplete N S)
    (hdec : IsDecomposable N S) (hw : DistWeights N S) (hl : DiscreteLeaves N S dom) (hI : InDomain N S (fun v => (dom v : Set Int)) I) :
    ∃ (x : XR) (L : Finset VarSet) (f : VarSet → XR), N.value I S = some x ∧ IsLogProb x ∧ (∀ J, J ∈ L ↔ Completion N S dom I J) ∧
      (∀ J ∈ L, N.value J S = some (f J) ∧ IsLogProb (f J)) ∧ unlog x = ∑ J ∈ L, unlog (f J) ∧
      ((∀ v, InScope N S v → I v = none) → x = .fin 0) := by
  obtain ⟨x, L, f, h1, h2, h3, h4, h5⟩ := C06_value_marginal_unnormalised N S dom I hac hcomp hdec hw.nonneg hl hI
  refine ⟨x, L, f, h1, h2, h3, h4, h5, fun h0 => ?_⟩
  have := Net.prob_empty hac hw hl h0 S Relation.ReflTransGen.refl
  simp only [Net.prob, h1, Option.map_some, Option.getD_some] at this
  exact unlog_inj h2 trivial (by rw [this]; simp)

example : Acyclic mixNet.ch ∧ IsComplete mixNet 0 ∧ IsDecomposable mixNet 0 ∧ DistWeights mixNet 0 ∧ DiscreteLeaves mixNet 0 (fun _ => {0, 1}) ∧
    InDomain mixNet 0 (fun v => ((fun _ => {0, 1} : Int → Finset Int) v : Set Int)) (VarSet.single 1 0) := by
  refine ⟨mixNet_acyclic, mixNet_complete, mixNet_decomposable, mixNet_weights, mixNet_discrete, ?_⟩
  intro v _ x hx
  simp only [VarSet.single] at hx
  split at hx <;> simp at hx
  simp [← hx]

/-! ### C08 -/

/-- C08, upper bound: for leaves with a proper MAP value and non-negative weights (no validity needed), no assignment that agrees with the
evidence on the scope of `S` has a larger `Max` than the evidence; both calls return. -/
theorem C08_max_upper_bound (N : Net ι XR) (S : ι) (dom : Int → Set Int) (I J : VarSet) (hac : Acyclic N.ch) (hw : NonnegWeights N S)
    (hl : ∀ n l, Reach N.ch S n → N.kind n = .leaf l → MaxLeaf dom l) (hI : InDomain N S dom I) (hJ : InDomain N S dom J) (hext : Extends N S I J) :
    ∃ x y, N.max J S = some x ∧ N.max I S = some y ∧ IsLogProb x ∧ IsLogProb y ∧ unlog x ≤ unlog y := by
  obtain ⟨x, hx, hx'⟩ := Net.max_ok hac hw (leaves_max hl hJ) S Relation.ReflTransGen.refl
  obtain ⟨y, hy, hy'⟩ := Net.max_ok hac hw (leaves_max hl hI) S Relation.ReflTransGen.refl
  refine ⟨x, y, hx, hy, hx', hy', ?_⟩
  have := Net.pmax_mono hac hw hl hI hJ S Relation.ReflTransGen.refl hext
  rwa [Net.pmax_some hx, Net.pmax_some hy] at this

/-- What C08 asks of a MAP state `M`: it sets exactly the variables of `S`, to values of their domains, agrees with the evidence, and `Max` of it is the
`Max` of the evidence. -/
def IsMapState (N : Net ι XR) (S : ι) (dom : Int → Set Int) (I M : VarSet) : Prop :=
  (∀ v, (∃ x, M v = some x) ↔ InScope N S v) ∧ Extends N S I M ∧ (∀ v x, M v = some x → x ∈ dom v) ∧ N.max M S = N.max I S

/-- C08, part, for `ArgMax`: on a valid network (`MapNet`: no cycles, complete, decomposable, non-negative weights, leaves with a proper MAP
value), for evidence within the domains that has positive MAP probability, `ArgMax` returns a MAP state, provided every unobserved indicator is of
the value 0 and every unobserved Gaussian has an integer mean (`MapNet.modes`). Missing: other indicators and Gaussians
(`C08_indicator_refuted`, `C08_gaussian_refuted`) and evidence of probability zero (C09). -/
theorem C08_argMax_partial (N : Net ι XR) (S : ι) (dom : Int → Set Int) (I : VarSet) (h : MapNet N S dom I) (a : ℝ) (ha : N.max I S = some (.fin a)) :
    ∃ M, N.argMax I S = some (M, .fin a) ∧ IsMapState N S dom I M := by
  obtain ⟨M, h1, h2, h3, h4, h5⟩ := h.argMax_state S Relation.ReflTransGen.refl a ha
  exact ⟨M, h1, h2, fun v hs x hx => h3 v x hs hx, h4, by rw [h5, ha]⟩

/-- C08, part, for `StoreMAP`: under the same conditions and those of C07 (root with children, no child reachable from a sibling listed after it), for any
storage a client can reach and any usable ticket, `StoreMAP` returns a MAP state whatever the random tie breaking `pick` does. -/
theorem C08_storeMAP_partial (N : Net ι XR) (S : ι) (dom : Int → Set Int) (I : VarSet) (h : MapNet N S dom I) (a : ℝ) (ha : N.max I S = some (.fin a))
    (hso : SiblingOrdered N.ch S) (hS : N.ch S ≠ []) (ops : List (StOp ι XR)) (c : Client ι XR) (outs : List (StOut XR))
    (hr : Client.new.run ops = some (c, outs)) (tk : Int) (ht : tk < 0 ∨ c.s.table tk ≠ none) (pick : ι → Nat → Nat) :
    ∃ M st', N.storeMAP S I tk c.s pick = some (some (S, usedTicket c.s tk, M), st') ∧ IsMapState N S dom I M := by
  obtain ⟨st', get, h1, h2⟩ := storeMAP_phases N S I h.acyclic hso hS ops c outs hr tk ht pick (by rw [ha]; simp)
  obtain ⟨M, g1, g2, g3, g4, g5⟩ := h.storeMAP_state (pick := pick) h1 ha
  exact ⟨M, st', by rw [h2, g1]; rfl, g2, fun v hs x hx => g3 v x hs hx, g4, by rw [g5, ha]⟩

theorem mixNet_map (I : VarSet) (hI : InDomain mixNet 0 (fun _ => {0, 1}) I) : MapNet mixNet 0 (fun _ => {0, 1}) I := by
  refine ⟨mixNet_acyclic, mixNet_complete, mixNet_decomposable, mixNet_weights.nonneg, ?_, ?_, hI⟩
  · intro n l _ hk
    fin_cases n <;> simp [mixNet] at hk <;> subst hk
    · exact ⟨[1 / 2, 1 / 2], 1, 1 / 2, by simp, by norm_num, rfl, by simp, by simp, by norm_num, by simp, by simp⟩
    · exact ⟨[1 / 3, 2 / 3], 1, 2 / 3, by simp, by norm_num, rfl, by simp, by simp, by norm_num, by simp, by simp⟩
    · trivial
    · exact ⟨[1, 0], 0, 1, by simp, by norm_num, rfl, by simp, by simp, by norm_num, by simp, by simp⟩
  · intro n l _ hk
    fin_cases n <;> simp [mixNet] at hk <;> subst hk
    · trivial
    · trivial
    · right; simp
    · trivial

/-- Without evidence the MAP probability of `mixNet` is positive. -/
theorem mixNet_positive : ∃ a, mixNet.max (fun _ => none) 0 = some (.fin a) := by
  have hm := mixNet_map (fun _ => none) (fun _ _ _ h => by cases h)
  have h1 := Net.max_product hm.acyclic hm.weights hm.leavesMax (n := 1) (Relation.ReflTransGen.single (by decide : (1 : Fin 7) ∈ mixNet.ch 0)) rfl
  have h3 : mixNet.pmax (fun _ => none) 3 = 1 / 2 := by
    have : mixNet.max (fun _ => none) 3 = some (.fin (Real.log (1 / 2))) := by
      rw [Net.max_unfold mixNet_acyclic]; simp [Net.maxStep, mixNet, Leaf.max, XR.log]
    rw [Net.pmax_some this, unlog_fin, Real.exp_log (by norm_num)]
  have h4 : mixNet.pmax (fun _ => none) 4 = 2 / 3 := by
    have : mixNet.max (fun _ => none) 4 = some (.fin (Real.log (2 / 3))) := by
      rw [Net.max_unfold mixNet_acyclic]; simp [Net.maxStep, mixNet, Leaf.max, XR.log]
    rw [Net.pmax_some this, unlog_fin, Real.exp_log (by norm_num)]
  simp only [List.map_cons, List.map_nil, List.prod_cons, List.prod_nil, h3, h4] at h1
  obtain ⟨g, us, k1, k2, k3, k4, k5, k6, k7, k8⟩ := Net.max_sum hm.acyclic hm.weights hm.leavesMax (n := 0) Relation.ReflTransGen.refl (cs := [1, 2])
    (r := [1 / 4, 3 / 4]) rfl
  rw [k6]
  have hsp := maxCompute_spec us k4
  have hx : ∃ u ∈ us, unlog u ≠ 0 := by
    cases us with
    | nil => simp at k3
    | cons u us =>
      refine ⟨u, by simp, ?_⟩
      simp only [List.map_cons, List.zipWith_cons_cons, List.cons.injEq] at k5
      rw [k5.1, h1]; norm_num
  obtain ⟨u, hu, hne⟩ := hx
  obtain ⟨a, ha⟩ := isLogProb_fin_of hsp.1 (fun h0 => hne (le_antisymm (by rw [← h0]; exact hsp.2.2 u hu) (unlog_nonneg u)))
  exact ⟨a, by rw [ha]⟩

/-- The hypotheses of C08 are met by `mixNet`, which has products, a multinomial with ties and an indicator. -/
example : MapNet mixNet 0 (fun _ => {0, 1}) (fun _ => none) ∧ (∃ a, mixNet.max (fun _ => none) 0 = some (.fin a)) ∧ SiblingOrdered mixNet.ch 0 ∧
    mixNet.ch 0 ≠ [] ∧ ∃ (c : Client (Fin 7) XR) (outs : List (StOut XR)), Client.new.run [] = some (c, outs) :=
  ⟨mixNet_map _ (fun _ _ _ h => by cases h), mixNet_positive, mixNet_siblings, by decide, _, _, rfl⟩

/-- C08 is false for an unobserved indicator of a value other than 0: the state gives its variable the value 0 and has probability zero. -/
theorem C08_indicator_refuted : ∃ (N : Net Unit XR) (I M : VarSet) (a : ℝ), Acyclic N.ch ∧ IsComplete N () ∧ IsDecomposable N () ∧
    N.argMax I () = some (M, .fin a) ∧ N.max I () = some (.fin a) ∧ N.max M () = some .ninf := by
  have hac : Acyclic (⟨fun _ => .leaf (.indicator 0 1)⟩ : Net Unit XR).ch := ⟨fun _ => 0, by simp [Net.ch]⟩
  refine ⟨⟨fun _ => .leaf (.indicator 0 1)⟩, fun _ => none, VarSet.single 0 0, 0, hac, ?_, ?_, ?_, ?_, ?_⟩
  · intro n _ cs w hk; cases hk
  · intro n _ cs hk; cases hk
  · rw [Net.argMax_unfold hac]; simp [Net.argMaxStep, Leaf.argMax]
  · rw [Net.max_unfold hac]; simp [Net.maxStep, Leaf.max]
  · rw [Net.max_unfold hac]; simp [Net.maxStep, Leaf.max, VarSet.single]

/-- C08 is false for a Gaussian whose mean is not an integer: evidence and states hold integers, and the rounded mean has a smaller density. -/
theorem C08_gaussian_refuted : ∃ (N : Net Unit XR) (I M : VarSet) (a b : ℝ), Acyclic N.ch ∧ IsComplete N () ∧ IsDecomposable N () ∧
    N.argMax I () = some (M, .fin a) ∧ N.max I () = some (.fin a) ∧ N.max M () = some (.fin b) ∧ b < a := by
  have hac : Acyclic (⟨fun _ => .leaf (.gaussian 0 (.fin (1 / 2)) (.fin 1))⟩ : Net Unit XR).ch := ⟨fun _ => 0, by simp [Net.ch]⟩
  have hr : XR.toInt (XR.round (.fin (1 / 2))) = 1 := by
    have h1 : ⌊(1 / 2 : ℝ) + 1 / 2⌋ = 1 := by norm_num
    simp only [XR.round, h1]; norm_num [XR.toInt]
  refine ⟨⟨fun _ => .leaf (.gaussian 0 (.fin (1 / 2)) (.fin 1))⟩, fun _ => none, VarSet.single 0 1, -(Real.log (2 * Real.pi) / 2),
    -(Real.log (2 * Real.pi) / 2) - 1 / 8, hac, ?_, ?_, ?_, ?_, ?_, ?_⟩
  · intro n _ cs w hk; cases hk
  · intro n _ cs hk; cases hk
  · rw [Net.argMax_unfold hac]
    simp only [Net.argMaxStep, Leaf.argMax]
    have he : GoFloat.eq (XR.fin 1) (ofInt 0) = false := by simp [XR.eq]
    have hr' : (GoFloat.toInt (GoFloat.round (XR.fin (1 / 2)))) = 1 := hr
    have hn : GoFloat.normLogProb (XR.fin (1 / 2)) (.fin 1) (.fin (1 / 2)) = .fin (-(Real.log (2 * Real.pi) / 2)) := by
      show XR.normLogProb _ _ _ = _
      norm_num [XR.normLogProb, XR.sub, XR.add, XR.neg, XR.log, XR.mul, XR.div]
    rw [he, hr', hn]; rfl
  · rw [Net.max_unfold hac]
    have he : GoFloat.eq (XR.fin 1) (ofInt 0) = false := by simp [XR.eq]
    have hn : GoFloat.normLogProb (XR.fin (1 / 2)) (.fin 1) (.fin (1 / 2)) = .fin (-(Real.log (2 * Real.pi) / 2)) := by
      show XR.normLogProb _ _ _ = _
      norm_num [XR.normLogProb, XR.sub, XR.add, XR.neg, XR.log, XR.mul, XR.div]
    simp only [Net.maxStep, Leaf.max]
    rw [he, hn]; rfl
  · rw [Net.max_unfold hac]
    have he : GoFloat.eq (XR.fin 1) (ofInt 0) = false := by simp [XR.eq]
    have hn : GoFloat.normLogProb (XR.fin (1 / 2)) (.fin 1) (ofInt 1) = .fin (-(Real.log (2 * Real.pi) / 2) - 1 / 8) := by
      show XR.normLogProb _ _ (.fin (1 : Int)) = _
      norm_num [XR.normLogProb, XR.sub, XR.add, XR.neg, XR.log, XR.mul, XR.div]
      ring
    simp only [Net.maxStep, Leaf.max, VarSet.single, if_true]
    rw [he, hn]; rfl
  · norm_num

/-! ### C09 -/

/-- C09, part: for a network without cycles (validity is not needed) with children and one non-negative weight per child at every sum node, evidence within
the domains of the leaves, and positive MAP probability, `ArgMax` returns. Missing: MAP probability zero, where the claim is false
(`C09_zero_probability_refuted`). -/
theorem C09_argMax_returns_partial (N : Net ι XR) (S : ι) (dom : Int → Set Int) (I : VarSet) (hac : Acyclic N.ch) (hw : NonnegWeights N S)
    (hl : ∀ n l, Reach N.ch S n → N.kind n = .leaf l → MaxLeaf dom l) (hI : InDomain N S dom I) (a : ℝ) (ha : N.max I S = some (.fin a)) :
    ∃ M x, N.argMax I S = some (M, x) := by
  have := Net.argMax_returns hac hw (leaves_max hl hI) ?_ S Relation.ReflTransGen.refl a ha
  · obtain ⟨⟨M, x⟩, h⟩ := Option.ne_none_iff_exists'.1 this; exact ⟨M, x, h⟩
  · intro n l hn hk
    have hm := hl n l hn hk
    have hd := hI (leafVar l) ⟨n, l, hn, hk, rfl⟩
    cases l with
    | indicator v x => simp only [Leaf.argMax]; split <;> [simp; (split <;> simp)]
    | gaussian v mu s => simp only [Leaf.argMax]; split <;> [simp; (split <;> simp)]
    | multinomial sc v pr mi mv =>
      obtain ⟨q, k, m, rfl, _, _, _, _, _, _, hdom⟩ := hm
      simp only [Leaf.argMax]
      simp only [leafVar] at hd
      cases hIv : I v with
      | none => simp
      | some x =>
        obtain ⟨h0, h1⟩ := hdom x (hd x hIv)
        obtain ⟨p, _, hp⟩ := goIdx_map_fin q x h0 h1
        simp [hp]

/-- C09 is false for evidence of MAP probability zero: in every network as in `C09_argMax_returns_partial` whose root is a sum node, `ArgMax` panics on such
evidence. -/
theorem C09_zero_probability_refuted (N : Net ι XR) (S : ι) (dom : Int → Set Int) (I : VarSet) (hac : Acyclic N.ch) (hw : NonnegWeights N S)
    (hl : ∀ n l, Reach N.ch S n → N.kind n = .leaf l → MaxLeaf dom l) (hI : InDomain N S dom I) (cs : List ι) (w : List XR) (hk : N.kind S = .sum cs w)
    (ha : N.max I S = some .ninf) : N.argMax I S = none :=
  Net.argMax_panics hac hw (leaves_max hl hI) Relation.ReflTransGen.refl hk ha

/-- There is such a network and such evidence: a sum over one indicator of the value 0, and the value 1. -/
theorem C09_witness : ∃ (N : Net (Fin 2) XR) (I : VarSet) (cs : List (Fin 2)) (w : List XR), Acyclic N.ch ∧ NonnegWeights N 0 ∧
    (∀ n l, Reach N.ch 0 n → N.kind n = .leaf l → MaxLeaf (fun _ => {0, 1}) l) ∧ InDomain N 0 (fun _ => {0, 1}) I ∧ N.kind 0 = .sum cs w ∧
    N.max I 0 = some .ninf ∧ N.argMax I 0 = none := by
  have hac : Acyclic (⟨![.sum [1] [.fin 1], .leaf (.indicator 0 0)]⟩ : Net (Fin 2) XR).ch := ⟨![1, 0], by
    intro u v h; fin_cases u <;> simp [Net.ch] at h; subst h; simp⟩
  have hw : NonnegWeights (⟨![.sum [1] [.fin 1], .leaf (.indicator 0 0)]⟩ : Net (Fin 2) XR) 0 := by
    intro n _ cs w hk
    fin_cases n <;> simp at hk
    obtain ⟨rfl, rfl⟩ := hk
    exact ⟨by simp, [1], by simp, by simp, by simp⟩
  have hl : ∀ n l, Reach (⟨![.sum [1] [.fin 1], .leaf (.indicator 0 0)]⟩ : Net (Fin 2) XR).ch 0 n →
      (⟨![.sum [1] [.fin 1], .leaf (.indicator 0 0)]⟩ : Net (Fin 2) XR).kind n = .leaf l → MaxLeaf (fun _ => {0, 1}) l := by
    intro n l _ hk
    fin_cases n <;> simp at hk; subst hk; trivial
  have hI : InDomain (⟨![.sum [1] [.fin 1], .leaf (.indicator 0 0)]⟩ : Net (Fin 2) XR) 0 (fun _ => {0, 1}) (fun _ => some 1) := by
    intro v _ x hx; simp at hx; simp [← hx]
  have hm : (⟨![.sum [1] [.fin 1], .leaf (.indicator 0 0)]⟩ : Net (Fin 2) XR).max (fun _ => some 1) 0 = some .ninf := by
    have h1 : (⟨![.sum [1] [.fin 1], .leaf (.indicator 0 0)]⟩ : Net (Fin 2) XR).max (fun _ => some 1) 1 = some .ninf := by
      rw [Net.max_unfold hac]; simp [Net.maxStep, Leaf.max]
    rw [Net.max_unfold hac]; simp [Net.maxStep, h1, weightedMax, maxCompute, XR.log, XR.lt]
  exact ⟨_, _, _, _, hac, hw, hl, hI, rfl, hm, C09_zero_probability_refuted _ 0 _ _ hac hw hl hI _ _ rfl hm⟩

end Gospn
