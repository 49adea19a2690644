import Verif.Proofs.Ascent
import Verif.Proofs.LearnBatch
/-!
Property C132: whether a gradient step makes the instance it was taken on more probable.
-/
set_option linter.unusedSectionVars false
set_option linter.unusedSimpArgs false
namespace Gospn
open Spec GoFloat

variable {ι : Type} [DecidableEq ι] [Fintype ι]

/-- C132, without normalisation: on every acyclic graph, however the values and derivatives come out, `GenerativeGD` with a learning rate that is not negative lowers the value of no node
under any evidence, in any number of epochs over any data. -/
theorem C132_unnormalised (N : Net ι XR) (S : ι) (P : Params XR) (eta : ℝ) (he : 0 ≤ eta) (data : List VarSet) (isStack : Bool) (hac : Acyclic N.ch) (hw : NonnegWeights N S)
    (hl : ∀ I ∈ data, LeavesEval N S I) :
    ∃ N', N.generativeGD S P (.fin eta) data isStack false = some N' ∧ ∀ J, LeavesEval N S J → ∀ n, Reach N.ch S n →
      ∃ x x', N.value J n = some x ∧ N'.value J n = some x' ∧ IsLogProb x ∧ IsLogProb x' ∧ unlog x ≤ unlog x' := by
  obtain ⟨⟨N', st'⟩, h1, h2, h3, _, h5⟩ := epochs_invariant (body := fun x => data.foldlM (Net.gdInstance S (.fin eta) ((Storer.new : Storer ι XR).newTicket).1
      ((Storer.new : Storer ι XR).newTicket.2.newTicket).1 isStack false) x)
    (P := fun x : Net ι XR × Storer ι XR => OnlyWeights S N x.1 ∧ NonnegWeights x.1 S ∧
      TwoTickets ((Storer.new : Storer ι XR).newTicket).1 ((Storer.new : Storer ι XR).newTicket.2.newTicket).1 x.2 ∧
      ∀ J, LeavesEval N S J → ∀ n, Reach N.ch S n → N.prob J n ≤ x.1.prob J n) (by
    intro x hx
    refine foldlM_inv data x ?_ hx
    intro I hI ⟨M, st⟩ ⟨g1, g2, g3, g4⟩
    obtain ⟨N1, st1, q1, q2, q3, q4, q5⟩ := gdInstance_grows (by rw [g1.ch]; exact hac) g2 (g1.leavesEval (hl I hI)) g3 eta he isStack
    refine ⟨(N1, st1), q1, g1.trans q3, q4, q2, fun J hJ n hn => le_trans (g4 J hJ n hn) (q5 J (g1.leavesEval hJ) n (by rw [g1.ch]; exact hn))⟩) P.iterations
    (N, ((Storer.new : Storer ι XR).newTicket.2.newTicket).2) ⟨.refl S N, hw, twoTickets_new, fun _ _ _ _ => le_refl _⟩
  refine ⟨N', by simp only [Net.generativeGD, h1, Option.map_some], ?_⟩
  intro J hJ n hn
  obtain ⟨⟨x, e1, e2, e3⟩, _⟩ := Net.prob_spec hac hw hJ hn
  obtain ⟨⟨x', f1, f2, f3⟩, _⟩ := Net.prob_spec (by rw [h2.ch]; exact hac) h3 (h2.leavesEval hJ) (n := n) (by rw [h2.ch]; exact hn)
  exact ⟨x, x', e1, f1, e2, f2, by rw [e3, f3]; exact h5 J hJ n hn⟩

/-- A single step. -/
theorem generativeGD_one {N : Net ι XR} {S : ι} {P : Params XR} (hP : P.iterations = 1) (eta : XR) (I : VarSet) (isStack norm : Bool) {N' : Net ι XR} {st' : Storer ι XR}
    (h : Net.gdInstance S eta ((Storer.new : Storer ι XR).newTicket).1 ((Storer.new : Storer ι XR).newTicket.2.newTicket).1 isStack norm
      (N, ((Storer.new : Storer ι XR).newTicket.2.newTicket).2) I = some (N', st')) :
    N.generativeGD S P eta [I] isStack norm = some N' := by
  simp only [Net.generativeGD, hP, epochs]
  simp [h]

/-- C132, part: with normalisation, a step does not make the instance less probable if no sum node favours a child more than the step does.
Missing: all other weights (`C132_refuted`), and graphs on which values or derivatives are computed wrongly. -/
theorem C132_balanced_partial (N : Net ι XR) (S : ι) (P : Params XR) (hP : P.iterations = 1) (eta : ℝ) (he : 0 ≤ eta) (I : VarSet) (isStack : Bool) (hx : ExactNet N S isStack)
    (hw : DistWeights N S) (hl : LeavesEval N S I) (hb : ∀ p, IsValuation N S p → LeafProbs N S I p → Balanced N S p) :
    ∃ N', N.generativeGD S P (.fin eta) [I] isStack true = some N' ∧ ∃ x x', N.value I S = some x ∧ N'.value I S = some x' ∧ IsLogProb x ∧ IsLogProb x' ∧ unlog x ≤ unlog x' := by
  obtain ⟨N', st', h1, _, h2, h3, d, _, h4, h5⟩ := gdInstance_normed hx hw hl twoTickets_new eta he
  refine ⟨N', generativeGD_one hP _ _ _ _ h1, ?_⟩
  have hb' := hb _ (prob_isValuation hx.acyclic hw.nonneg hl) (prob_leaf hx.acyclic hl)
  have hm := prob_mono (J := I) hx.acyclic h2 hw.nonneg h3.nonneg hl (by
    intro n hr cs r r' hk hk'
    rw [h5 n hr cs r r' hk hk']
    have h6 := hb' n hr cs _ hk
    rw [(Net.prob_spec hx.acyclic hw.nonneg hl hr).2.2 cs r hk] at h6
    have h7 : 0 ≤ (cs.map (N.prob I)).sum := List.sum_nonneg (by intro x hx'; obtain ⟨c, _, rfl⟩ := List.mem_map.1 hx'; exact prob_nonneg' _ _ _)
    have h8 := mul_nonneg he (h4 n)
    rw [le_div_iff₀ (by have := mul_nonneg h8 h7; linarith)]
    nlinarith [mul_le_mul_of_nonneg_left h6 h8]) S Relation.ReflTransGen.refl
  obtain ⟨⟨x, e1, e2, e3⟩, _⟩ := Net.prob_spec hx.acyclic hw.nonneg hl (n := S) Relation.ReflTransGen.refl
  obtain ⟨⟨x', f1, f2, f3⟩, _⟩ := Net.prob_spec (by rw [h2.ch]; exact hx.acyclic) h3.nonneg (h2.leavesEval hl) (n := S) Relation.ReflTransGen.refl
  exact ⟨x, x', e1, f1, e2, f2, by rw [e3, f3]; exact hm⟩

theorem square_sum_le : ∀ (l : List ℝ), l.sum ^ 2 ≤ l.length * (l.map (· ^ 2)).sum := by
  intro l
  induction l with
  | nil => simp
  | cons a l ih =>
    simp only [List.sum_cons, List.map_cons, List.length_cons, Nat.cast_succ]
    generalize hs : l.sum = s at *
    generalize hq : (l.map (· ^ 2)).sum = q at *
    rcases Nat.eq_zero_or_pos l.length with h0 | h0
    · rw [List.length_eq_zero_iff] at h0; subst h0; simp at hs hq ⊢; subst hs hq; simp
    · have h1 : 0 < (l.length : ℝ) := by exact_mod_cast h0
      generalize (l.length : ℝ) = n at *
      have h2 : 0 ≤ n * (n * a ^ 2 + q - 2 * a * s) := by nlinarith [sq_nonneg (n * a - s)]
      have h3 : 0 ≤ n * a ^ 2 + q - 2 * a * s := nonneg_of_mul_nonneg_right h2 h1
      nlinarith

theorem uniform_balanced {N : Net ι XR} {S : ι} (hs : ∀ n cs w, N.kind n = .sum cs w → cs ≠ []) (hw : UniformWeights N S) {p : ι → ℝ} (hp : IsValuation N S p) : Balanced N S p := by
  intro n hr cs w hk
  have h0 : 0 < (cs.length : ℝ) := by exact_mod_cast List.length_pos_iff.2 (hs n cs w hk)
  have hw' := hw n hr cs w hk
  subst hw'
  have hv : p n = (cs.map p).sum / cs.length := by
    rw [(hp n hr).1, hk]
    simp only [nodeValue]
    have : ∀ (l : List ι) (a : ℝ), (List.zipWith (fun c w => realOf w * p c) l (List.replicate l.length (XR.fin a))).sum = a * (l.map p).sum := by
      intro l a
      induction l with
      | nil => simp
      | cons c l ih => simp only [List.length_cons, List.replicate_succ, List.zipWith_cons_cons, List.sum_cons, List.map_cons, ih]; show a * _ + _ = _; ring
    rw [this]; ring
  rw [hv]
  have := square_sum_le (cs.map p)
  rw [List.length_map, List.map_map] at this
  rw [div_mul_eq_mul_div, div_le_iff₀ h0]
  have e : (cs.map fun c => p c ^ 2) = cs.map ((· ^ 2) ∘ p) := rfl
  rw [e]; nlinarith

/-- C132, part: the first step from uniform weights does not make its instance less probable. -/
theorem C132_uniform_partial (N : Net ι XR) (S : ι) (P : Params XR) (hP : P.iterations = 1) (eta : ℝ) (he : 0 ≤ eta) (I : VarSet) (isStack : Bool) (hx : ExactNet N S isStack)
    (hw : UniformWeights N S) (hl : LeavesEval N S I) :
    ∃ N', N.generativeGD S P (.fin eta) [I] isStack true = some N' ∧ ∃ x x', N.value I S = some x ∧ N'.value I S = some x' ∧ IsLogProb x ∧ IsLogProb x' ∧ unlog x ≤ unlog x' := by
  have hd : DistWeights N S := by
    intro n hr cs w hk
    have h0 : 0 < (cs.length : ℝ) := by exact_mod_cast List.length_pos_iff.2 (hx.sums n cs w hk)
    refine ⟨List.replicate cs.length (1 / (cs.length : ℝ)), by rw [hw n hr cs w hk]; simp, by simp, ?_, ?_⟩
    · intro x hx'; rw [List.eq_of_mem_replicate hx']; positivity
    · simp; field_simp
  exact C132_balanced_partial N S P hP eta he I isStack hx hd hl (fun p hp _ => uniform_balanced hx.sums hw hp)

/-- C132 on mixtures of leaves, exactly: a normalised step makes its instance less probable if and only if the weights favour the better leaves more than their values do. -/
theorem C132_mixture (N : Net ι XR) (S : ι) (P : Params XR) (hP : P.iterations = 1) (eta : ℝ) (he : 0 < eta) (I : VarSet) (isStack : Bool) (hx : ExactNet N S isStack)
    (hw : DistWeights N S) (hl : LeavesEval N S I) (cs : List ι) (w : List XR) (hk : N.kind S = .sum cs w) (hc : ∀ c ∈ cs, ∃ l, N.kind c = .leaf l) :
    ∃ N', N.generativeGD S P (.fin eta) [I] isStack true = some N' ∧ ∃ x x' ys, N.value I S = some x ∧ N'.value I S = some x' ∧ cs.mapM (N.value I) = some ys ∧
      (unlog x' < unlog x ↔ ((ys.map unlog).map (· ^ 2)).sum < unlog x * (ys.map unlog).sum) := by
  obtain ⟨N', st', h1, _, h2, h3, d, hd, h4, h5⟩ := gdInstance_normed hx hw hl twoTickets_new eta he.le
  refine ⟨N', generativeGD_one hP _ _ _ _ h1, ?_⟩
  have hac' : Acyclic N'.ch := by rw [h2.ch]; exact hx.acyclic
  obtain ⟨⟨x, e1, e2, e3⟩, _, e4⟩ := Net.prob_spec hx.acyclic hw.nonneg hl (n := S) Relation.ReflTransGen.refl
  obtain ⟨⟨x', f1, f2, f3⟩, _, f4⟩ := Net.prob_spec hac' h3.nonneg (h2.leavesEval hl) (n := S) Relation.ReflTransGen.refl
  obtain ⟨r, rfl, _⟩ := hw S Relation.ReflTransGen.refl cs w hk
  obtain ⟨w', hk', _⟩ := h2.sum hk
  obtain ⟨r', rfl, _⟩ := h3 S Relation.ReflTransGen.refl cs w' hk'
  have hsame : ∀ c ∈ cs, N'.prob I c = N.prob I c := by
    intro c hcc
    obtain ⟨l, hkl⟩ := hc c hcc
    have e : N.value I c = N'.value I c := by rw [Net.value_unfold hx.acyclic, Net.value_unfold hac']; simp [Net.valueStep, hkl, h2.leaf.2 hkl]
    simp [Net.prob, e]
  have hv : ∀ c ∈ cs, ∃ y, N.value I c = some y ∧ unlog y = N.prob I c := by
    intro c hcc
    obtain ⟨⟨y, y1, _, y3⟩, _⟩ := Net.prob_spec hx.acyclic hw.nonneg hl (n := c) (Relation.ReflTransGen.tail Relation.ReflTransGen.refl (by simp [Net.ch, hk, hcc]))
    exact ⟨y, y1, y3⟩
  choose! g hg using hv
  refine ⟨x, x', cs.map g, e1, f1, mapM_eq_some (fun c hcc => (hg c hcc).1), ?_⟩
  have m1 : (cs.map g).map unlog = cs.map (N.prob I) := by rw [List.map_map]; exact List.map_congr_left (fun c hcc => (hg c hcc).2)
  rw [m1, List.map_map]
  have m2 : cs.map (N'.prob I) = cs.map (N.prob I) := List.map_congr_left hsame
  rw [e3, f3, f4 cs r' hk', m2, h5 S Relation.ReflTransGen.refl cs r r' hk hk', hd, mul_one, ← e4 cs r hk]
  have h7 : 0 ≤ (cs.map (N.prob I)).sum := List.sum_nonneg (by intro x hx'; obtain ⟨c, _, rfl⟩ := List.mem_map.1 hx'; exact prob_nonneg' _ _ _)
  rw [div_lt_iff₀ (by have := mul_nonneg he.le h7; linarith)]
  have e : (cs.map fun c => N.prob I c ^ 2) = cs.map ((· ^ 2) ∘ N.prob I) := rfl
  rw [← e]
  constructor
  · intro h
    by_contra hcon
    have := mul_le_mul_of_nonneg_left (not_lt.1 hcon) he.le
    nlinarith
  · intro h
    have := mul_lt_mul_of_pos_left h he
    nlinarith

/-- Two distributions of one variable, mixed three to one. -/
noncomputable def peakNet : Net (Fin 3) XR where
  kind := fun n => match n with
    | 0 => .sum [1, 2] [.fin (3 / 4), .fin (1 / 4)]
    | 1 => .leaf (.multinomial [0] 0 ([1, 0].map XR.fin) 0 (.fin 1))
    | 2 => .leaf (.multinomial [0] 0 ([1 / 2, 1 / 2].map XR.fin) 0 (.fin (1 / 2)))

theorem peakNet_exact (isStack : Bool) : ExactNet peakNet 0 isStack := by
  have hrank : ∀ u, ∀ v ∈ peakNet.ch u, (![1, 0, 0] : Fin 3 → Nat) v + 1 = (![1, 0, 0] : Fin 3 → Nat) u := by
    intro u v hv
    fin_cases u <;> simp [peakNet, Net.ch] at hv
    rcases hv with rfl | rfl <;> rfl
  refine ⟨⟨![1, 0, 0], fun u v h => by have := hrank u v h; omega⟩, siblingOrdered_of_rank _ hrank, by simp [peakNet, Net.ch], ?_, ?_⟩
  · intro n cs w hk
    fin_cases n <;> simp [peakNet] at hk
    rw [← hk.1]; simp
  · right
    intro u _ u' _ c hc hc' hl
    fin_cases u <;> simp [peakNet, Net.ch] at hc
    fin_cases u' <;> simp [peakNet, Net.ch] at hc'
    rfl

theorem peakNet_dist : DistWeights peakNet 0 := by
  intro n _ cs w hk
  fin_cases n <;> simp [peakNet] at hk
  obtain ⟨rfl, rfl⟩ := hk
  exact ⟨[3 / 4, 1 / 4], by simp, by simp, by simp; norm_num, by norm_num⟩

theorem peakNet_discrete : DiscreteLeaves peakNet 0 (fun _ => {0, 1}) := by
  intro n l _ hk
  fin_cases n <;> simp [peakNet] at hk <;> subst hk
  · exact ⟨[1, 0], by simp, by simp, by norm_num, by intro x; simp; omega⟩
  · exact ⟨[1 / 2, 1 / 2], by simp, by simp, by norm_num, by intro x; simp; omega⟩

/-- C132 is false with normalisation, which is the default: for this mixture, which is a proper distribution with positive weights, every step makes its instance less probable,
however small the learning rate. -/
theorem C132_refuted : ∃ (N : Net (Fin 3) XR) (I : VarSet), ExactNet N 0 false ∧ DistWeights N 0 ∧ IsComplete N 0 ∧ IsDecomposable N 0 ∧ DiscreteLeaves N 0 (fun _ => {0, 1}) ∧
    InDomain N 0 (fun _ => {0, 1}) I ∧ ∀ (P : Params XR), P.iterations = 1 → ∀ eta : ℝ, 0 < eta →
      ∃ N', N.generativeGD 0 P (.fin eta) [I] false true = some N' ∧ ∃ x x', N.value I 0 = some x ∧ N'.value I 0 = some x' ∧ unlog x' < unlog x := by
  have hd : InDomain peakNet 0 (fun _ => ((({0, 1} : Finset Int)) : Set Int)) (VarSet.single 0 0) := by
    intro v _ u hu
    by_cases hv : v = 0
    · simp [VarSet.single, hv] at hu; simp [← hu]
    · simp [VarSet.single, hv] at hu
  have hl := discrete_eval peakNet_discrete hd
  refine ⟨peakNet, VarSet.single 0 0, peakNet_exact false, peakNet_dist, ?_, ?_, peakNet_discrete, by simpa using hd, ?_⟩
  · intro n _ cs w hk c hc d hd v h
    fin_cases n <;> simp [peakNet] at hk
    obtain ⟨rfl, rfl⟩ := hk
    have h1 := InScope.of_leaf (N := peakNet) (n := 1) (v := v) rfl
    have h2 := InScope.of_leaf (N := peakNet) (n := 2) (v := v) rfl
    simp only [leafVar] at h1 h2
    simp at hc hd
    rcases hc with rfl | rfl <;> rcases hd with rfl | rfl <;> simp_all
  · intro n _ cs hk
    fin_cases n <;> simp [peakNet] at hk
  · intro P hP eta he
    obtain ⟨N', h1, x, x', ys, h2, h3, h4, h5⟩ := C132_mixture peakNet 0 P hP eta he (VarSet.single 0 0) false (peakNet_exact false) peakNet_dist hl [1, 2] _ rfl (by
      intro c hc; fin_cases c <;> simp [peakNet] at hc ⊢)
    refine ⟨N', h1, x, x', h2, h3, h5.2 ?_⟩
    obtain ⟨⟨y, y1, _, y3⟩, _, y4⟩ := Net.prob_spec (peakNet_exact false).acyclic peakNet_dist.nonneg hl (n := (0 : Fin 3)) Relation.ReflTransGen.refl
    have v1 : peakNet.value (VarSet.single 0 0) 1 = some (XR.log (.fin 1)) := by
      rw [Net.value_unfold (peakNet_exact false).acyclic]; rfl
    have v2 : peakNet.value (VarSet.single 0 0) 2 = some (XR.log (.fin (1 / 2))) := by
      rw [Net.value_unfold (peakNet_exact false).acyclic]; rfl
    have u1 : unlog (XR.log (.fin 1)) = 1 := (log_nonneg_spec (by norm_num)).2
    have u2 : unlog (XR.log (.fin (1 / 2))) = 1 / 2 := (log_nonneg_spec (by norm_num)).2
    rw [y1] at h2; cases h2
    simp only [List.mapM_cons, List.mapM_nil, v1, v2, Option.bind_eq_bind, Option.bind_some, Option.pure_def, Option.some.injEq] at h4
    subst h4
    have p1 : peakNet.prob (VarSet.single 0 0) 1 = 1 := by simp only [Net.prob, v1, Option.map_some, Option.getD_some, u1]
    have p2 : peakNet.prob (VarSet.single 0 0) 2 = 1 / 2 := by simp only [Net.prob, v2, Option.map_some, Option.getD_some, u2]
    rw [y3, y4 [1, 2] [3 / 4, 1 / 4] rfl]
    simp only [List.map_cons, List.map_nil, wsum_cons, wsum_nil, List.sum_cons, List.sum_nil, p1, p2, u1, u2]
    norm_num

/-- The hypotheses of `C132_unnormalised`, `C132_balanced_partial` and `C132_mixture` hold of networks with more than one leaf value, those of `C132_uniform_partial` of the mixture with equal weights. -/
example : Acyclic peakNet.ch ∧ NonnegWeights peakNet 0 ∧ LeavesEval peakNet 0 (VarSet.single 0 0) ∧ ExactNet peakNet 0 true ∧ DistWeights peakNet 0 ∧
    (∃ cs w, peakNet.kind 0 = .sum cs w ∧ ∀ c ∈ cs, ∃ l, peakNet.kind c = .leaf l) := by
  refine ⟨(peakNet_exact true).acyclic, peakNet_dist.nonneg, ?_, peakNet_exact true, peakNet_dist, [1, 2], _, rfl, ?_⟩
  · refine discrete_eval peakNet_discrete ?_
    intro v _ u hu
    by_cases hv : v = 0
    · simp [VarSet.single, hv] at hu; simp [← hu]
    · simp [VarSet.single, hv] at hu
  · intro c hc; fin_cases c <;> simp [peakNet] at hc ⊢

example : ∃ N : Net (Fin 3) XR, ExactNet N 0 false ∧ UniformWeights N 0 ∧ LeavesEval N 0 (VarSet.single 0 0) ∧ ∀ p, IsValuation N 0 p → LeafProbs N 0 (VarSet.single 0 0) p → Balanced N 0 p := by
  let M : Net (Fin 3) XR := ⟨fun n => match n with
    | 0 => .sum [1, 2] (List.replicate 2 (.fin (1 / ((2 : ℕ) : ℝ))))
    | 1 => .leaf (.multinomial [0] 0 ([1, 0].map XR.fin) 0 (.fin 1))
    | 2 => .leaf (.multinomial [0] 0 ([1 / 2, 1 / 2].map XR.fin) 0 (.fin (1 / 2)))⟩
  have hM : OnlyWeights 0 peakNet M := by
    intro n
    fin_cases n
    · exact ⟨_, rfl, rfl, fun h => absurd Relation.ReflTransGen.refl h⟩
    · rfl
    · rfl
  have hu : UniformWeights M 0 := by
    intro n _ cs w hk
    fin_cases n <;> simp [M] at hk
    obtain ⟨rfl, rfl⟩ := hk
    simp
  have hl : LeavesEval M 0 (VarSet.single 0 0) := by
    refine hM.leavesEval (discrete_eval peakNet_discrete ?_)
    intro v _ u hu
    by_cases hv : v = 0
    · simp [VarSet.single, hv] at hu; simp [← hu]
    · simp [VarSet.single, hv] at hu
  exact ⟨M, (peakNet_exact false).of hM, hu, hl, fun p hp _ => uniform_balanced ((peakNet_exact false).of hM).sums hu hp⟩

end Gospn
