import Verif.Proofs.LearnBatch
/-!
Properties C69 to C74: the learning loops.
-/
set_option linter.unusedSectionVars false
set_option linter.unusedSimpArgs false
namespace Gospn
open Spec GoFloat

variable {ι : Type} [DecidableEq ι] [Fintype ι]

/-! ### C69 -/

/-- C69, with normalisation: on every graph (shared nodes, any order, even cycles), with weights that are probability vectors and instances on which the leaves have values,
`GenerativeGD` with a learning rate that is not negative returns; the network then has probability vectors as weights again and nothing but weights of sum nodes below `S` has changed. -/
theorem C69_normalised (N : Net ι XR) (S : ι) (P : Params XR) (eta : ℝ) (he : 0 ≤ eta) (data : List VarSet) (isStack : Bool) (hne : ∀ n, Reach N.ch S n → ∀ cs w, N.kind n = .sum cs w → cs ≠ [])
    (hw : DistWeights N S) (hl : ∀ I ∈ data, LeavesEval N S I) :
    ∃ N', N.generativeGD S P (.fin eta) data isStack true = some N' ∧ OnlyWeights S N N' ∧ DistWeights N' S := by
  obtain ⟨⟨N', st'⟩, h1, h2, h3, _⟩ := epochs_invariant (body := fun x => data.foldlM (Net.gdInstance S (.fin eta) ((Storer.new : Storer ι XR).newTicket).1
      ((Storer.new : Storer ι XR).newTicket.2.newTicket).1 isStack true) x)
    (P := fun x : Net ι XR × Storer ι XR => OnlyWeights S N x.1 ∧ DistWeights x.1 S ∧
      TwoTickets ((Storer.new : Storer ι XR).newTicket).1 ((Storer.new : Storer ι XR).newTicket.2.newTicket).1 x.2) (by
    intro x hx
    refine foldlM_inv data x ?_ hx
    intro I hI ⟨M, st⟩ ⟨g1, g2, g3⟩
    have hM : NonnegWeights M S := fun n hr cs w hk => by
      obtain ⟨w0, hk0, _⟩ := g1.sum' hk
      obtain ⟨r, e1, e2, e3, _⟩ := g2 n hr cs w hk
      exact ⟨hne n (by rw [← g1.ch]; exact hr) cs w0 hk0, r, e1, e2, e3⟩
    obtain ⟨N1, st1, q1, q2, q3, _, q5⟩ := gdInstance_ok hM (g1.leavesEval (hl I hI)) g3 eta he isStack true
    exact ⟨(N1, st1), q1, g1.trans (q3 (Or.inr g2)), q5 rfl g2, q2⟩) P.iterations (N, ((Storer.new : Storer ι XR).newTicket.2.newTicket).2)
    ⟨.refl S N, hw, twoTickets_new⟩
  exact ⟨N', by simp only [Net.generativeGD, h1, Option.map_some], h2, h3⟩

/-- C69, without normalisation: the weights stay non-negative. -/
theorem C69_unnormalised (N : Net ι XR) (S : ι) (P : Params XR) (eta : ℝ) (he : 0 ≤ eta) (data : List VarSet) (isStack : Bool) (hw : NonnegWeights N S)
    (hl : ∀ I ∈ data, LeavesEval N S I) :
    ∃ N', N.generativeGD S P (.fin eta) data isStack false = some N' ∧ OnlyWeights S N N' ∧ NonnegWeights N' S := by
  obtain ⟨⟨N', st'⟩, h1, h2, h3, _⟩ := epochs_invariant (body := fun x => data.foldlM (Net.gdInstance S (.fin eta) ((Storer.new : Storer ι XR).newTicket).1
      ((Storer.new : Storer ι XR).newTicket.2.newTicket).1 isStack false) x)
    (P := fun x : Net ι XR × Storer ι XR => OnlyWeights S N x.1 ∧ NonnegWeights x.1 S ∧
      TwoTickets ((Storer.new : Storer ι XR).newTicket).1 ((Storer.new : Storer ι XR).newTicket.2.newTicket).1 x.2) (by
    intro x hx
    refine foldlM_inv data x ?_ hx
    intro I hI ⟨M, st⟩ ⟨g1, g2, g3⟩
    obtain ⟨N1, st1, q1, q2, q3, q4, _⟩ := gdInstance_ok g2 (g1.leavesEval (hl I hI)) g3 eta he isStack false
    exact ⟨(N1, st1), q1, g1.trans (q3 (Or.inl rfl)), q4 rfl, q2⟩) P.iterations (N, ((Storer.new : Storer ι XR).newTicket.2.newTicket).2)
    ⟨.refl S N, hw, twoTickets_new⟩
  exact ⟨N', by simp only [Net.generativeGD, h1, Option.map_some], h2, h3⟩

/-- C69 with C06: a complete and decomposable network with discrete leaves is still a distribution after learning: its value on any evidence is the sum of its values on the completions,
and one where nothing is given. -/
theorem C69_still_distribution (N : Net ι XR) (S : ι) (P : Params XR) (eta : ℝ) (he : 0 ≤ eta) (data : List VarSet) (isStack : Bool) (dom : Int → Finset Int)
    (hac : Acyclic N.ch) (hcomp : IsComplete N S) (hdec : IsDecomposable N S) (hne : ∀ n, Reach N.ch S n → ∀ cs w, N.kind n = .sum cs w → cs ≠ [])
    (hw : DistWeights N S) (hl : DiscreteLeaves N S dom) (hd : ∀ I ∈ data, InDomain N S (fun v => (dom v : Set Int)) I) :
    ∃ N', N.generativeGD S P (.fin eta) data isStack true = some N' ∧ ∀ I : VarSet, InDomain N S (fun v => (dom v : Set Int)) I →
      ∃ (x : XR) (L : Finset VarSet) (f : VarSet → XR), N'.value I S = some x ∧ IsLogProb x ∧ (∀ J, J ∈ L ↔ Completion N S dom I J) ∧
        (∀ J ∈ L, N'.value J S = some (f J) ∧ IsLogProb (f J)) ∧ unlog x = ∑ J ∈ L, unlog (f J) ∧ ((∀ v, InScope N S v → I v = none) → x = .fin 0) := by
  obtain ⟨N', h1, h2, h3⟩ := C69_normalised N S P eta he data isStack hne hw (fun I hI => discrete_eval hl (hd I hI))
  refine ⟨N', h1, fun I hI => ?_⟩
  obtain ⟨x, L, f, g1, g2, g3, g4, g5, g6⟩ := C06_value_marginal N' S dom I (by rw [h2.ch]; exact hac) (h2.complete hcomp) (h2.decomposable hdec) h3 (h2.discrete hl)
    (fun v hv => hI v ((h2.inScope S v).1 hv))
  have hc : ∀ J, Completion N' S dom I J ↔ Completion N S dom I J := by
    intro J
    unfold Completion
    simp only [h2.inScope]
  exact ⟨x, L, f, g1, g2, fun J => by rw [g3, hc], g4, g5, fun h => g6 (fun v hv => h v ((h2.inScope S v).1 hv))⟩

example : (0 : ℝ) ≤ 1 / 10 ∧ Acyclic mixNet.ch ∧ DistWeights mixNet 0 ∧ (∀ n, Reach mixNet.ch 0 n → ∀ cs w, mixNet.kind n = .sum cs w → cs ≠ []) ∧
    ∀ I ∈ [(fun _ => none : VarSet)], LeavesEval mixNet 0 I := by
  refine ⟨by norm_num, mixNet_acyclic, mixNet_weights, ?_, ?_⟩
  · intro n _ cs w hk
    fin_cases n <;> simp [mixNet] at hk
    rw [← hk.1]; simp
  · intro I hI
    simp at hI; subst hI
    exact discrete_eval mixNet_discrete (fun _ _ _ h => by cases h)

/-! ### C70 -/

/-- C70, part: `GenerativeGD` is gradient ascent on the probability of the instances, one step per instance at the current weights, over the whole data set as many times as
`P.Iterations` says (the convergence threshold `eps` plays no role). Missing: networks on which values or derivatives are computed wrongly (C04, C31). -/
theorem C70_ascent_partial (N : Net ι XR) (S : ι) (P : Params XR) (eta : ℝ) (he : 0 ≤ eta) (data : List VarSet) (isStack norm : Bool) (hx : ExactNet N S isStack)
    (hw : NonnegWeights N S) (hn : norm = true → DistWeights N S) (hl : ∀ I ∈ data, LeavesEval N S I) :
    ∃ N', N.generativeGD S P (.fin eta) data isStack norm = some N' ∧ AscentRun S eta norm (List.replicate P.iterations.toNat data).flatten N N' := by
  -- one pass over the data
  have hpass : ∀ (D : List VarSet) (M : Net ι XR) (st : Storer ι XR), (∀ I ∈ D, I ∈ data) → OnlyWeights S N M → NonnegWeights M S → (norm = true → DistWeights M S) →
      TwoTickets ((Storer.new : Storer ι XR).newTicket).1 ((Storer.new : Storer ι XR).newTicket.2.newTicket).1 st →
      ∃ M' st', D.foldlM (Net.gdInstance S (.fin eta) ((Storer.new : Storer ι XR).newTicket).1 ((Storer.new : Storer ι XR).newTicket.2.newTicket).1 isStack norm) (M, st) = some (M', st') ∧
        AscentRun S eta norm D M M' ∧ OnlyWeights S N M' ∧ NonnegWeights M' S ∧ (norm = true → DistWeights M' S) ∧
        TwoTickets ((Storer.new : Storer ι XR).newTicket).1 ((Storer.new : Storer ι XR).newTicket.2.newTicket).1 st' := by
    intro D
    induction D with
    | nil => intro M st _ h1 h2 h3 h4; exact ⟨M, st, rfl, .nil M, h1, h2, h3, h4⟩
    | cons I D ih =>
      intro M st hD h1 h2 h3 h4
      obtain ⟨M1, st1, q1, q2, q3, q4, q5⟩ := gdInstance_exact (hx.of h1) h2 (h1.leavesEval (hl I (hD I (by simp)))) h4 eta he norm h3
      obtain ⟨M2, st2, p1, p2, p3⟩ := ih M1 st1 (fun J hJ => hD J (by simp [hJ])) (h1.trans q3.1) q4 q5 q2
      exact ⟨M2, st2, by rw [List.foldlM_cons, q1]; exact p1, .cons q3 p2, p3⟩
  have hall : ∀ (k : Nat) (M : Net ι XR) (st : Storer ι XR), OnlyWeights S N M → NonnegWeights M S → (norm = true → DistWeights M S) →
      TwoTickets ((Storer.new : Storer ι XR).newTicket).1 ((Storer.new : Storer ι XR).newTicket.2.newTicket).1 st →
      ∃ M' st', (List.replicate k ()).foldlM (fun x _ => data.foldlM (Net.gdInstance S (.fin eta) ((Storer.new : Storer ι XR).newTicket).1
          ((Storer.new : Storer ι XR).newTicket.2.newTicket).1 isStack norm) x) (M, st) = some (M', st') ∧ AscentRun S eta norm (List.replicate k data).flatten M M' := by
    intro k
    induction k with
    | zero => intro M st _ _ _ _; exact ⟨M, st, rfl, .nil M⟩
    | succ k ih =>
      intro M st h1 h2 h3 h4
      obtain ⟨M1, st1, q1, q2, q3, q4, q5, q6⟩ := hpass data M st (fun _ h => h) h1 h2 h3 h4
      obtain ⟨M2, st2, p1, p2⟩ := ih M1 st1 q3 q4 q5 q6
      exact ⟨M2, st2, by rw [List.replicate_succ, List.foldlM_cons, q1]; exact p1, by rw [List.replicate_succ, List.flatten_cons]; exact q2.append p2⟩
  obtain ⟨N', st', h1, h2⟩ := hall P.iterations.toNat N _ (.refl S N) hw hn twoTickets_new
  exact ⟨N', by simp only [Net.generativeGD, epochs, h1, Option.map_some], h2⟩

/-- The conditions of C70 hold of a mixture, whose nodes form a tree, with either container. -/
theorem mixNet_exact : ExactNet mixNet 0 true := by
  refine ⟨mixNet_acyclic, mixNet_siblings, by simp [mixNet, Net.ch], ?_, Or.inr ?_⟩
  · intro n cs w hk
    fin_cases n <;> simp [mixNet] at hk
    rw [← hk.1]; simp
  · intro u _ u' _ c hc hc' hl
    fin_cases u <;> fin_cases u' <;> simp [mixNet, Net.ch] at hc hc' <;> (try rcases hc with rfl | rfl) <;> (try rcases hc' with h | h) <;>
      first | rfl | (exfalso; revert h; decide)

example : ExactNet mixNet 0 true ∧ NonnegWeights mixNet 0 ∧ DistWeights mixNet 0 ∧ LeavesEval mixNet 0 (fun _ => none) :=
  ⟨mixNet_exact, mixNet_weights.nonneg, mixNet_weights, discrete_eval mixNet_discrete (fun _ _ _ h => by cases h)⟩

/-- Node 4 lies two steps below the root on one path and three on another, and the sum node 5 below it. -/
noncomputable def deepNet : Net (Fin 7) XR :=
  ⟨![.sum [1, 2] [.fin (1 / 2), .fin (1 / 2)], .product [4], .product [3], .product [4], .product [5], .sum [6] [.fin 1], .leaf (.indicator 0 1)]⟩

theorem deepNet_ch : deepNet.ch = ![[1, 2], [4], [3], [4], [5], [6], []] := by funext i; fin_cases i <;> rfl

theorem deepNet_acyclic : Acyclic deepNet.ch := by
  rw [deepNet_ch]; exact ⟨![5, 3, 4, 3, 2, 1, 0], by decide⟩

theorem deepNet_reach (n : Fin 7) : Reach deepNet.ch 0 n := by
  have r1 : Reach deepNet.ch 0 1 := Relation.ReflTransGen.single (show (1 : Fin 7) ∈ deepNet.ch 0 by simp [deepNet, Net.ch])
  have r2 : Reach deepNet.ch 0 2 := Relation.ReflTransGen.single (show (2 : Fin 7) ∈ deepNet.ch 0 by simp [deepNet, Net.ch])
  have r3 : Reach deepNet.ch 0 3 := r2.tail (show (3 : Fin 7) ∈ deepNet.ch 2 by simp [deepNet, Net.ch])
  have r4 : Reach deepNet.ch 0 4 := r1.tail (show (4 : Fin 7) ∈ deepNet.ch 1 by simp [deepNet, Net.ch])
  have r5 : Reach deepNet.ch 0 5 := r4.tail (show (5 : Fin 7) ∈ deepNet.ch 4 by simp [deepNet, Net.ch])
  have r6 : Reach deepNet.ch 0 6 := r5.tail (show (6 : Fin 7) ∈ deepNet.ch 5 by simp [deepNet, Net.ch])
  fin_cases n <;> first | exact Relation.ReflTransGen.refl | assumption

theorem deepNet_siblings : SiblingOrdered deepNet.ch 0 := by
  have h21 : ∀ x, Reach deepNet.ch 2 x → x ≠ 0 ∧ x ≠ 1 := by
    intro x hx
    induction hx with
    | refl => decide
    | tail _ h ih =>
      rename_i b c _
      rw [deepNet_ch] at h
      revert ih h
      fin_cases b <;> fin_cases c <;> decide
  intro w _
  rw [deepNet_ch] at h21 ⊢
  fin_cases w <;> simp
  exact fun h => (h21 1 h).2 rfl

theorem deepNet_dist : DistWeights deepNet 0 := by
  intro n _ cs w hk
  fin_cases n <;> simp [deepNet] at hk <;> obtain ⟨rfl, rfl⟩ := hk
  · exact ⟨[1 / 2, 1 / 2], by simp, by simp, by norm_num, by norm_num⟩
  · exact ⟨[1], by simp, by simp, by norm_num, by norm_num⟩

theorem deepNet_eval : LeavesEval deepNet 0 (fun _ => none) := by
  intro n l _ hk
  fin_cases n <;> simp [deepNet] at hk
  subst hk
  exact ⟨.fin 0, by simp [Leaf.value], isLogProb_fin _⟩

/-- C70 is false when paths to a node have different lengths: from weights that are all fine, one instance with nothing given and learning rate 1 the weight of node 5
becomes one and a half. Its derivative is one, so gradient ascent would have made it two. -/
theorem C70_ascent_refuted : ∃ (N : Net (Fin 7) XR) (P : Params XR) (data : List VarSet), Acyclic N.ch ∧ SiblingOrdered N.ch 0 ∧ DistWeights N 0 ∧ (∀ I ∈ data, LeavesEval N 0 I) ∧
    ∃ N', N.generativeGD 0 P (.fin 1) data false false = some N' ∧ ¬ AscentRun 0 1 false (List.replicate P.iterations.toNat data).flatten N N' := by
  refine ⟨deepNet, { (Params.default : Params XR) with iterations := 1 }, [fun _ => none], deepNet_acyclic, deepNet_siblings, deepNet_dist, by
    intro I hI; simp at hI; subst hI; exact deepNet_eval, ?_⟩
  have hsums : ∀ n cs w, deepNet.kind n = .sum cs w → cs ≠ [] := by
    intro n cs w hk
    fin_cases n <;> simp [deepNet] at hk <;> rw [← hk.1] <;> simp
  have hw : NonnegWeights deepNet 0 := deepNet_dist.nonneg
  have ht := twoTickets_new (ι := Fin 7) (F := XR)
  generalize hb : (Storer.new : Storer (Fin 7) XR).newTicket.2.newTicket.2 = st at ht
  -- the values
  have hval := prob_isValuation deepNet_acyclic hw deepNet_eval
  have hp6 : deepNet.prob (fun _ => none) 6 = 1 := by
    obtain ⟨x, h1, _, h2⟩ := prob_leaf deepNet_acyclic deepNet_eval 6 (.indicator 0 1) (deepNet_reach 6) rfl
    rw [h2]; simp [Leaf.value] at h1; subst h1; simp
  have hp : ∀ n, deepNet.prob (fun _ => none) n = 1 := by
    have h5 := hval 5 (deepNet_reach 5); have h4 := hval 4 (deepNet_reach 4); have h3 := hval 3 (deepNet_reach 3)
    have h2 := hval 2 (deepNet_reach 2); have h1 := hval 1 (deepNet_reach 1); have h0 := hval 0 (deepNet_reach 0)
    generalize deepNet.prob (fun _ => none) = p at *
    simp [deepNet, nodeValue, realOf] at h0 h1 h2 h3 h4 h5
    replace h5 := h5.1; replace h4 := h4.1; replace h3 := h3.1; replace h2 := h2.1; replace h1 := h1.1; replace h0 := h0.1
    rw [h5] at h4; rw [h4] at h3 h1; rw [h3] at h2; rw [h1, h2] at h0
    intro n
    fin_cases n <;> simp [h5, h4, h3, h2, h1, hp6]
    rw [h0, hp6]; norm_num
  have hS : deepNet.ch 0 ≠ [] := by simp [deepNet, Net.ch]
  obtain ⟨st1, a1, a2, a3, a4, a5⟩ := store_exact deepNet_acyclic deepNet_siblings hS hsums hw deepNet_eval ht.wf ht.logs
  obtain ⟨st2, b1, b2, b3⟩ := deriveSPN_run (isStack := false) hw (a2.wf ht.wf) a3 ht.nn.1 (by rw [a2.table]; exact ht.tabs.1) ht.ne
    (fun n => by rw [a5 _ ht.ne]; exact (ht.empty n 0).1) a4
  generalize hst : (Storer.new : Storer (Fin 7) XR).newTicket.1 = stk at ht a1 b1 b2 b3
  obtain ⟨N', q1, _, q3⟩ := C33_apply deepNet 0 (.fin 1) st2 stk (Storer.new : Storer (Fin 7) XR).newTicket.2.newTicket.1 false false (by
    intro n hr cs w hk
    obtain ⟨_, r, rfl, hlen, _⟩ := hw n hr cs w hk
    simp [hlen])
  refine ⟨N', ?_, ?_⟩
  · simp only [Net.generativeGD, epochs, hb, Int.toNat_one, List.replicate_one, List.foldlM_cons, List.foldlM_nil, Net.gdInstance]
    rw [hst, a1]
    simp only [Option.bind_some, b1, q1, Option.map_some]
    rfl
  -- the weight the code computes
  obtain ⟨x, x1, x2, x3⟩ := a4 6 (deepNet_reach 6)
  obtain ⟨e, e1, e2, e3⟩ := b2 5 (deepNet_reach 5)
  rw [← b3 _ (Ne.symm ht.ne)] at x1
  have hd : unlog e = 1 / 2 := by
    have hi : deepNet.innerCh = ![[1, 2], [4], [3], [4], [5], [], []] := by
      funext i; fin_cases i <;> simp [Net.innerCh, Net.ch, Net.type, deepNet]
    have ho : workOrder deepNet.innerCh false 0 = [0, 1, 2, 4, 3, 5] := by rw [hi]; decide
    rw [e3, ho]
    simp +decide [accStep, edgeCoef, coefs, deepNet, realOf, hp]
  obtain ⟨w', k1, k2, k3, _⟩ := q3 5 (deepNet_reach 5) [6] [.fin 1] rfl
  have k4 := k3 0 6 (.fin 1) rfl rfl
  have hs := add_spec x2 e2
  rw [x1, e1] at k4
  simp only [Option.getD_some, XR.g_add, XR.g_exp, XR.g_mul, exp_logProb hs.1, hs.2] at k4
  rw [x3, hd, hp] at k4
  -- the weight gradient ascent computes
  intro hrun
  have hl : (List.replicate ({ (Params.default : Params XR) with iterations := 1 }).iterations.toNat [(fun _ => none : VarSet)]).flatten = [fun _ => none] := rfl
  rw [hl] at hrun
  cases hrun with
  | cons hstep hnil =>
    cases hnil
    obtain ⟨_, p, p1, p2, p3⟩ := hstep
    obtain ⟨r, r', g1, g2, g3, g4⟩ := p3 5 (deepNet_reach 5) [6] [.fin 1] rfl
    have hr : r = [1] := by
      apply List.map_injective_iff.2 _ (g1.symm.trans (show [XR.fin 1] = [(1 : ℝ)].map XR.fin from rfl))
      intro a b hab; cases hab; rfl
    subst hr
    obtain ⟨d, d1, d2⟩ := g4 0 1 rfl
    have hw' : w' = r'.map XR.fin := by
      rw [g3] at k1
      simpa using k1.symm
    rw [hw', List.getElem?_map, d2] at k4
    obtain ⟨⟨v, hv⟩, hder⟩ := d1
    have hpd := hder v hv
    have hp6' : p 6 = 1 := by
      obtain ⟨y, y1, _, y2⟩ := p2 6 (.indicator 0 1) (deepNet_reach 6) rfl
      rw [y2]; simp [Leaf.value] at y1; subst y1; simp
    have hvx : ∀ x, v x 0 = x := by
      intro x
      have h6 := hv x 6 (deepNet_reach 6); have h5 := hv x 5 (deepNet_reach 5); have h4 := hv x 4 (deepNet_reach 4); have h3 := hv x 3 (deepNet_reach 3)
      have h2 := hv x 2 (deepNet_reach 2); have h1 := hv x 1 (deepNet_reach 1); have h0 := hv x 0 (deepNet_reach 0)
      simp +decide [deepNet, nodeValue, realOf, setWeight] at h0 h1 h2 h3 h4 h5 h6
      rw [h0, h1, h2, h3, h4, h5, h6, hp6']; ring
    have hid : (fun x => v x 0) = id := funext hvx
    rw [hid] at hpd
    have := hpd.unique (hasDerivAt_id 1)
    subst this
    simp at k4

/-! ### C71 -/

private theorem bgd_start (N : Net ι XR) (S : ι) (norm : Bool) (hw : NonnegWeights N S) (hn : norm = true → DistWeights N S) :
    EState S norm ((Storer.new : Storer ι XR).newTicket).1 ((Storer.new : Storer ι XR).newTicket.2.newTicket).1 ((Storer.new : Storer ι XR).newTicket.2.newTicket.2.newTicket).1 N
      (N, ((Storer.new : Storer ι XR).newTicket.2.newTicket.2.newTicket).2) := by
  refine ⟨.refl _ _, hw, hn, ⟨Storer.newTicket_wf (Storer.newTicket_wf (Storer.newTicket_wf Storer.new_wf)), by simp [Storer.newTicket, Storer.new, Storer.makeAt],
    by simp [Storer.newTicket, Storer.new, Storer.makeAt], by simp [Storer.newTicket, Storer.new, Storer.makeAt, Storer.table], ?_⟩, ⟨by simp [Storer.newTicket, Storer.new, Storer.makeAt],
    by simp [Storer.newTicket, Storer.new, Storer.makeAt, Storer.table], fun _ => ⟨?_, fun _ _ => rfl⟩, fun h => h.elim, fun n l _ => ?_⟩⟩ <;>
  · intros
    simp [Storer.newTicket, Storer.new, Storer.makeAt, Storer.entry, Table.empty, Table.entry, Function.update_apply]

private theorem bgd_tickets : ((Storer.new : Storer ι XR).newTicket.2.newTicket.2.newTicket).1 ≠ ((Storer.new : Storer ι XR).newTicket).1 ∧
    ((Storer.new : Storer ι XR).newTicket.2.newTicket.2.newTicket).1 ≠ ((Storer.new : Storer ι XR).newTicket.2.newTicket).1 := by
  simp [Storer.newTicket, Storer.new, Storer.makeAt]

/-- C71: on every graph, with a batch size that is positive, a learning rate that is not negative, weights that are not negative and instances on which the leaves have values, `GenerativeBGD` returns
in whatever order Go ranges over the maps; nothing but weights of sum nodes below `S` has changed. Weights stay non-negative if the regularisation constant is at most one half;
with normalisation and a constant less than one half probability vectors stay probability vectors. -/
theorem C71_keeps (N : Net ι XR) (S : ι) (P : Params XR) (eta lambda : ℝ) (hP : P.lambda = .fin lambda) (he : 0 ≤ eta) (hla : lambda ≤ 1 / 2) (data : List VarSet) (isStack norm : Bool)
    (b : Nat) (hb : 0 < b) (mo : RangeOrder ι XR) (ho : RangesAll mo) (hw : NonnegWeights N S) (hn : norm = true → lambda < 1 / 2 ∧ DistWeights N S) (hl : ∀ I ∈ data, LeavesEval N S I) :
    ∃ N', N.generativeBGD S P (.fin eta) data isStack norm b mo = some N' ∧ OnlyWeights S N N' ∧ NonnegWeights N' S ∧ (norm = true → DistWeights N' S) := by
  obtain ⟨⟨N', st'⟩, h1, h2⟩ := epochs_invariant (body := Net.bgdEpoch S P (.fin eta) ((Storer.new : Storer ι XR).newTicket).1 ((Storer.new : Storer ι XR).newTicket.2.newTicket).1
      ((Storer.new : Storer ι XR).newTicket.2.newTicket.2.newTicket).1 isStack norm b mo data)
    (P := EState S norm ((Storer.new : Storer ι XR).newTicket).1 ((Storer.new : Storer ι XR).newTicket.2.newTicket).1 ((Storer.new : Storer ι XR).newTicket.2.newTicket.2.newTicket).1 N)
    (by
      intro x hx
      obtain ⟨y, q1, q2, _⟩ := bgdEpoch_state (ex := False) (isStack := isStack) hP hb he hla (fun h => (hn h).1) bgd_tickets.1 bgd_tickets.2 ho (fun h => h.elim) data hl hx
      exact ⟨y, q1, q2⟩) P.iterations _ (bgd_start N S norm hw (fun h => (hn h).2))
  exact ⟨N', by simp only [Net.generativeBGD, h1, Option.map_some], h2.shape, h2.weights, h2.dist⟩

/-- C71, part: `GenerativeBGD` cuts the data set into blocks of `b` instances, the last of which may be shorter, and takes for each block one step of regularised gradient ascent, with the sum of the gradients of
the block divided by `b` (also for a shorter block); it goes over the data set as many times as `P.Iterations` says. Missing: networks on which values or derivatives are computed wrongly (C04, C31). -/
theorem C71_ascent_partial (N : Net ι XR) (S : ι) (P : Params XR) (eta lambda : ℝ) (hP : P.lambda = .fin lambda) (he : 0 ≤ eta) (hla : lambda ≤ 1 / 2) (data : List VarSet) (isStack norm : Bool)
    (b : Nat) (hb : 0 < b) (mo : RangeOrder ι XR) (ho : RangesAll mo) (hx : ExactNet N S isStack) (hw : NonnegWeights N S) (hn : norm = true → lambda < 1 / 2 ∧ DistWeights N S)
    (hl : ∀ I ∈ data, LeavesEval N S I) :
    ∃ N' blocks, N.generativeBGD S P (.fin eta) data isStack norm b mo = some N' ∧ (0 < P.iterations → IsBlocking b data blocks) ∧
      BatchRun S eta lambda b norm (List.replicate P.iterations.toNat blocks).flatten N N' := by
  have hall : ∀ (k : Nat) (x : Net ι XR × Storer ι XR), EState S norm ((Storer.new : Storer ι XR).newTicket).1 ((Storer.new : Storer ι XR).newTicket.2.newTicket).1
        ((Storer.new : Storer ι XR).newTicket.2.newTicket.2.newTicket).1 N x →
      ∃ y blocks, (List.replicate k ()).foldlM (fun x _ => Net.bgdEpoch S P (.fin eta) ((Storer.new : Storer ι XR).newTicket).1 ((Storer.new : Storer ι XR).newTicket.2.newTicket).1
          ((Storer.new : Storer ι XR).newTicket.2.newTicket.2.newTicket).1 isStack norm b mo data x) x = some y ∧ (0 < k → IsBlocking b data blocks) ∧
        BatchRun S eta lambda b norm (List.replicate k blocks).flatten x.1 y.1 := by
    intro k
    induction k with
    | zero => intro x _; exact ⟨x, [], rfl, by simp, .nil _⟩
    | succ k ih =>
      intro x h
      obtain ⟨y, q1, q2, q3⟩ := bgdEpoch_state (ex := True) (isStack := isStack) hP hb he hla (fun h => (hn h).1) bgd_tickets.1 bgd_tickets.2 ho (fun _ => hx) data hl h
      obtain ⟨blocks, q4, q5⟩ := q3 trivial
      obtain ⟨z, blocks', p1, p2, p3⟩ := ih y q2
      refine ⟨z, blocks, by rw [List.replicate_succ, List.foldlM_cons, q1]; exact p1, fun _ => q4, ?_⟩
      rw [List.replicate_succ, List.flatten_cons]
      refine q5.append ?_
      cases k with
      | zero => simpa using p3
      | succ k => rw [q4.unique (p2 (by omega))]; exact p3
  obtain ⟨⟨N', st'⟩, blocks, h1, h2, h3⟩ := hall P.iterations.toNat _ (bgd_start N S norm hw (fun h => (hn h).2))
  exact ⟨N', blocks, by simp only [Net.generativeBGD, epochs, h1, Option.map_some], fun h => h2 (by omega), h3⟩

/-- C71: with a batch size of zero `GenerativeBGD` panics. -/
theorem C71_zero_batch {F : Type} [GoFloat F] (N : Net ι F) (S : ι) (P : Params F) (hP : 0 < P.iterations) (eta : F) (data : List VarSet) (isStack norm : Bool) (mo : RangeOrder ι F) :
    N.generativeBGD S P eta data isStack norm 0 mo = none := by
  obtain ⟨k, hk⟩ : ∃ k, P.iterations.toNat = k + 1 := ⟨P.iterations.toNat - 1, by omega⟩
  have : ∀ stk itk wtk x, Net.bgdEpoch S P eta stk itk wtk isStack norm 0 mo data x = none := by
    intro stk itk wtk x
    unfold Net.bgdEpoch
    cases data.foldlM (Net.bgdInstance S P eta stk itk wtk isStack norm 0 mo) (x, 0) with
    | none => rfl
    | some y => simp [goDvd]
  simp only [Net.generativeBGD, epochs, hk, List.replicate_succ, List.foldlM_cons, this]
  rfl

open Classical in
/-- An order of ranging. -/
noncomputable def someOrder (ι F : Type) [Fintype ι] : RangeOrder ι F where
  outer _ T := (Finset.univ.filter fun s => T s ≠ none).toList
  inner _ _ m := if h : {i : Int | m i ≠ none}.Finite then h.toFinset.toList else []

theorem someOrder_all (ι F : Type) [Fintype ι] : RangesAll (someOrder ι F) := by
  refine ⟨fun t T => ⟨Finset.nodup_toList _, by simp [someOrder]⟩, fun t s m h => ?_⟩
  simp only [someOrder, dif_pos h]
  exact ⟨Finset.nodup_toList _, by simp⟩

example : RangesAll (someOrder (Fin 6) XR) ∧ (Params.default : Params XR).lambda = .fin (1 / 100) ∧ (0 : ℝ) ≤ 1 / 10 ∧ (1 / 100 : ℝ) < 1 / 2 ∧ 0 < (Params.default : Params XR).iterations ∧
    IsBlocking 2 [1, 2, 3] [[1, 2], [3]] :=
  ⟨someOrder_all _ _, by simp [Params.default, XR.div_fin], by norm_num, by norm_num, by simp [Params.default], by simp [IsBlocking]⟩

end Gospn
