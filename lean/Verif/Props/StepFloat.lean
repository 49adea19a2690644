import Verif.Spec.StepFloat
import Verif.Props.GradFloat
import Verif.Props.NormFloat
/-!
Property C133: learning steps in floating point.
-/
set_option linter.unusedSectionVars false
set_option linter.unusedSimpArgs false
namespace Gospn
open Spec GoFloat

variable {ι : Type} [DecidableEq ι] [Fintype ι] {F : Type} [GoFloat F] {val : F → XR}

/-- One weight: `w + eta * exp(s)` where `s` is the stored logarithm of the derivative. -/
theorem step_weight {u η Ω E e a r G : ℝ} {w s eta : F} {y : XR} (hF : StdFloat val u η Ω) (hM : MulFloat val u η Ω) (hu : 0 ≤ u) (hu1 : u ≤ 1 / 6) (hη : 0 ≤ η) (hη1 : η ≤ 1)
    (he : 0 ≤ e) (hE : E ≤ 1) (hE0 : 0 ≤ E) (heta : val eta = .fin e) (hw : val w = .fin r) (hr : 0 ≤ r) (hra : |r - a| ≤ 2 * E * a) (ha : 0 ≤ a) (hs : Within E (val s) y)
    (hd : unlog y ≤ G) (haG : a ≤ G) (hΩ : 20 * (1 + e) * (1 + G) ≤ Ω) :
    ∃ z, val (add w (mul eta (exp s))) = .fin z ∧ |z - (a + e * unlog y)| ≤ (8 * E + 20 * u) * (a + e * unlog y) + (4 * e + 3) * η := by
  obtain ⟨d, hdd⟩ : ∃ d, d = unlog y := ⟨_, rfl⟩
  have hd0 : 0 ≤ d := by rw [hdd]; exact unlog_nonneg' _
  have hG : 0 ≤ G := le_trans ha haG
  rw [← hdd] at hd ⊢
  -- the exponential
  have hrel : |unlog (val s) - d| ≤ 2 * E * d := by rw [hdd]; exact C131_relative hs hE
  have hd3 : unlog (val s) ≤ 3 * d := by
    have := (abs_le.1 hrel).2
    nlinarith
  have heG : 0 ≤ e * G := mul_nonneg he hG
  have hexp : ∃ x, val (exp s) = .fin x ∧ |x - unlog (val s)| ≤ u * unlog (val s) + η := by
    rcases hs.cases with ⟨h1, _⟩ | ⟨α, β, h1, _, _⟩
    · exact ⟨0, hF.exp_ninf _ h1, by rw [h1]; simp [hη]⟩
    · rw [h1] at hd3 ⊢
      simp only [unlog_fin] at hd3 ⊢
      exact hF.exp s α h1 (by nlinarith)
  obtain ⟨x, x1, x2⟩ := hexp
  have hus0 : 0 ≤ unlog (val s) := unlog_nonneg' _
  have hx : |x - d| ≤ (2 * E + 3 * u) * d + η := by
    have h1 := abs_add_le (x - unlog (val s)) (unlog (val s) - d)
    rw [show x - unlog (val s) + (unlog (val s) - d) = x - d by ring] at h1
    have := mul_le_mul_of_nonneg_left hd3 hu
    nlinarith
  have hxabs : |x| ≤ 4 * d + 1 := by
    have h1 := abs_add_le (x - d) d
    rw [show x - d + d = x by ring, abs_of_nonneg hd0] at h1
    have : (2 * E + 3 * u) * d ≤ 3 * d := mul_le_mul_of_nonneg_right (by linarith) hd0
    linarith
  -- the product
  have hxη : |x| ≤ 4 * d + η := by
    have h1 := abs_add_le (x - d) d
    rw [show x - d + d = x by ring, abs_of_nonneg hd0] at h1
    have : (2 * E + 3 * u) * d ≤ 3 * d := mul_le_mul_of_nonneg_right (by linarith) hd0
    linarith
  have hex : |e * x| = e * |x| := by rw [abs_mul, abs_of_nonneg he]
  have hexb : e * |x| ≤ e * (4 * d + η) := mul_le_mul_of_nonneg_left hxη he
  have hedG : e * d ≤ e * G := mul_le_mul_of_nonneg_left hd he
  have heη : e * η ≤ e := by nlinarith
  have hed0 : 0 ≤ e * d := mul_nonneg he hd0
  have heη0 : 0 ≤ e * η := mul_nonneg he hη
  obtain ⟨m, m1, m2⟩ := hM eta (exp s) e x heta x1 (by rw [hex]; nlinarith)
  rw [hex] at m2
  have hm : |m - e * d| ≤ (2 * E + 7 * u) * (e * d) + (2 * e + 1) * η := by
    have h1 := abs_add_le (m - e * x) (e * x - e * d)
    rw [show m - e * x + (e * x - e * d) = m - e * d by ring] at h1
    have h2 : |e * x - e * d| = e * |x - d| := by rw [← mul_sub, abs_mul, abs_of_nonneg he]
    have h3 := mul_le_mul_of_nonneg_left hx he
    have h4 := mul_le_mul_of_nonneg_left hexb hu
    have h5 : u * (e * η) ≤ e * η := by nlinarith
    nlinarith
  -- the sum
  have hEa : E * a ≤ a := by nlinarith
  have hr3 : r ≤ 3 * a := by
    have := (abs_le.1 hra).2
    nlinarith
  have hmabs : |m| ≤ 5 * (e * d) + (2 * e + 1) * η := by
    have h1 := abs_add_le (m - e * d) (e * d)
    rw [show m - e * d + e * d = m by ring, abs_of_nonneg hed0] at h1
    have : (2 * E + 7 * u) * (e * d) ≤ 4 * (e * d) := mul_le_mul_of_nonneg_right (by linarith) hed0
    linarith
  have hrm : |r + m| ≤ 3 * a + 5 * (e * d) + (2 * e + 1) * η := by
    have := abs_add_le r m
    rw [abs_of_nonneg hr] at this
    linarith
  obtain ⟨z, z1, z2⟩ := hF.add w (mul eta (exp s)) r m hw m1 (by nlinarith)
  refine ⟨z, z1, ?_⟩
  have h1 := abs_add_le (z - (r + m)) ((r - a) + (m - e * d))
  rw [show z - (r + m) + ((r - a) + (m - e * d)) = z - (a + e * d) by ring] at h1
  have h2 := abs_add_le (r - a) (m - e * d)
  have h3 := mul_le_mul_of_nonneg_left hrm hu
  have h4 : u * ((2 * e + 1) * η) ≤ (2 * e + 1) * η * (1 / 6) := by
    have h0 : 0 ≤ (2 * e + 1) * η := mul_nonneg (by linarith) hη
    have := mul_le_mul_of_nonneg_right hu1 h0
    linarith
  have h5 : 0 ≤ u * a := mul_nonneg hu ha
  have h6 : 0 ≤ u * (e * d) := mul_nonneg hu hed0
  have h7 : 0 ≤ E * a := mul_nonneg hE0 ha
  have h8 : 0 ≤ E * (e * d) := mul_nonneg hE0 hed0
  linarith

/-- C133. Under the conditions of `C131_standard`, let `StoreInference`, `DeriveSPN` and `DeriveApplyWeights` (without normalisation) be called in turn with a learning rate `e ≥ 0`, as `GenerativeGD` does for each
instance. Every weight that is at most `G` and has a partial derivative of at most `G`, so that nothing overflows, becomes the exact one plus `e` times the exact partial derivative, up to a relative error of
`9·(8K + 5)·ε·H` and, for underflow, an absolute error of `(4e + 3)·η`. Nodes that are not sums below `S` stay as they are. -/
theorem C133_step (N : Net ι F) (M : Net ι XR) (S : ι) (I : VarSet) (K D H : ℕ) (L u η Ω B ε G e : ℝ) (eta : F) (rank : ι → ℕ) (hF : StdFloat val u η Ω) (hP : PairFloat val)
    (hM : MulFloat val u η Ω) (hu : 0 ≤ u) (hη : 0 ≤ η)
    (hrank : ∀ u, ∀ c ∈ M.ch u, rank c < rank u) (hdec : IsDecomposable M S) (hw : NonnegWeights M S) (hsc : ∀ n, Reach M.ch S n → ∃ v, InScope M n v)
    (hch : ∀ n, M.ch n = N.ch n) (hL : Real.log K ≤ L) (hL2 : Real.log 2 ≤ L) (hK : 1 ≤ K) (hs : ∀ n, Reach M.ch S n → StoresNode val K L ε (StoresLeaf val I L ε) (N.kind n) (M.kind n))
    (hD : ∀ n, Reach M.ch S n → inDegree M S n ≤ D) (hH : H = scopeSize M S * (2 * rank S + 1) + rank S * D) (hB : B = L * (H + 1) + K + 4) (hε : 2 * u * B + η ≤ ε) (hΩ : 2 * B ≤ Ω)
    (hsmall : (8 * K + 5) * ε * H ≤ 1) (hso : SiblingOrdered N.ch S) (hS : N.ch S ≠ []) (hne : ∀ n cs w, N.kind n = .sum cs w → cs ≠ []) (isStack : Bool) (hord : GoodSearch M S isStack)
    (he : 0 ≤ e) (heta : val eta = .fin e) (hΩG : 20 * (1 + e) * (1 + G) ≤ Ω)
    (ops : List (StOp ι F)) (c : Client ι F) (outs : List (StOut F)) (hr : Client.new.run ops = some (c, outs)) :
    ∃ st1 st2 N', N.storeInference S I (-1) c.s = some (some (S, c.s.tickets), st1) ∧ N.deriveSPN S st1 (-1) c.s.tickets isStack = some (c.s.tickets + 1, st2) ∧
      N.deriveApplyWeights S eta st2 (c.s.tickets + 1) c.s.tickets isStack false = some N' ∧
      (∀ n, (¬ Reach N.ch S n ∨ N.type n ≠ .sum) → N'.kind n = N.kind n) ∧
      ∀ n j b, SumEdge N S n j b → ∃ a d w', (M.weights n)[j]? = some (.fin a) ∧ 0 ≤ a ∧ IsWeightPartial M S (M.prob I) n j a d ∧ 0 ≤ d ∧ (N'.weights n)[j]? = some w' ∧
        (a ≤ G → d ≤ G → ∃ z, val w' = .fin z ∧ |z - (a + e * d)| ≤ 9 * ((8 * K + 5) * ε * H) * (a + e * d) + (4 * e + 3) * η) := by
  obtain ⟨st1, st2, st3, h1, h2, h3, _, h5⟩ := C131_standard N M S I K D H L u η Ω B ε rank hF hP hu hη hrank hdec hw hsc hch hL hL2 hK hs hD hH hB hε hΩ hsmall hso hS hne isStack hord ops c outs hr
  have hchf : M.ch = N.ch := funext hch
  have hac : Acyclic N.ch := ⟨rank, fun u v h => hrank u v (by rw [hch]; exact h)⟩
  have hK1 : (1 : ℝ) ≤ K := by exact_mod_cast hK
  have hL0 : 0 ≤ L := le_trans (Real.log_nonneg hK1) hL
  have hH0 : (0 : ℝ) ≤ H := Nat.cast_nonneg _
  have hB5 : 5 ≤ B := by rw [hB]; nlinarith [mul_nonneg hL0 hH0]
  have hu10 : 10 * u ≤ ε := by nlinarith
  have hε0 : 0 ≤ ε := by linarith [mul_nonneg hu (show (0 : ℝ) ≤ 10 by norm_num)]
  have hηε : η ≤ ε := by nlinarith
  -- the table of the weights holds what `DeriveApplyWeights` adds up
  have hwf : c.s.WF := Client.run_wf ops Storer.new_wf hr
  obtain ⟨hwf1, htk1⟩ := storeInference_wf hwf h1 hS
  have hu0 : usedTicket c.s (-1) = c.s.tickets := by simp [usedTicket]
  have htab : st1.table c.s.tickets ≠ none := by
    rcases C04_storeInference_partial N S I hac hso hS hne ops c outs hr (-1) (Or.inl (by omega)) with ⟨_, h⟩ | ⟨st1', g1, g2, _⟩
    · rw [h1] at h; cases h
    · rw [hu0] at g1 g2
      rw [h1] at g1
      simp only [Option.some.injEq, Prod.mk.injEq, true_and] at g1
      subst g1
      intro h
      have h' : st1.tables c.s.tickets = none := h
      obtain ⟨h5, h6⟩ := g2 S Relation.ReflTransGen.refl
      rw [← h5] at h6
      exact h6 (by simp [Storer.entry, h'])
  obtain ⟨_, k2, k3, _⟩ := (derive_tab N S st1 hwf1 c.s.tickets (by rw [htk1]; push_cast; omega) htab isStack).2 _ h2
  simp only at k2 k3
  have hu2 : usedTicket st2 (-1) = c.s.tickets + 2 := by
    simp only [usedTicket, k3, htk1]
    push_cast
    norm_num
    ring
  obtain ⟨st3', w1, _, w3, _⟩ := C32_deriveWeights N S isStack st2 k2 (-1) (c.s.tickets + 1) c.s.tickets (Or.inl (by omega)) (by rw [hu2]; omega) (by rw [hu2]; omega)
  rw [hu2] at w1 w3
  rw [h3] at w1
  simp only [Option.some.injEq, Prod.mk.injEq, true_and] at w1
  subst w1
  obtain ⟨N', n1, n2, n3⟩ := C33_apply N S eta st2 (c.s.tickets + 1) c.s.tickets isStack false (by
    intro n hn cs w hk
    have h6 := hs n (by rw [hchf]; exact hn)
    rw [hk] at h6
    cases hkM : M.kind n with
    | sum ds q => rw [hkM] at h6; exact h6.2.2.2.1
    | product _ => rw [hkM] at h6; exact absurd h6 id
    | leaf _ => rw [hkM] at h6; exact absurd h6 id)
  refine ⟨st1, st2, N', h1, h2, n1, n2, ?_⟩
  intro n j b hedge
  obtain ⟨s, y, a, e1, e2, e3, e4, e5⟩ := h5 n j b hedge
  rw [w3 n j b hedge] at e1
  simp only [Option.some.injEq] at e1
  obtain ⟨hn, cs, w, hk, hj⟩ := hedge
  have hnM : Reach M.ch S n := by rw [hchf]; exact hn
  obtain ⟨w', q1, q2, q3, _⟩ := n3 n hn cs w hk
  have h6 := hs n hnM
  rw [hk] at h6
  have hst : ∃ x, w[j]? = some x ∧ Stores val (L - Real.log K) ε x (.fin a) := by
    cases hkM : M.kind n with
    | product _ => rw [hkM] at h6; exact absurd h6 id
    | leaf _ => rw [hkM] at h6; exact absurd h6 id
    | sum ds q =>
      rw [hkM] at h6
      have hf := h6.2.2.2.2
      have hq : q[j]? = some (.fin a) := by simpa [Net.weights, hkM] using e3
      obtain ⟨hjq, hq'⟩ := List.getElem?_eq_some_iff.1 hq
      have hjw : j < w.length := by rw [hf.length_eq]; exact hjq
      have hg := hf.get (i := j) hjw hjq
      simp only [List.get_eq_getElem, hq'] at hg
      exact ⟨w[j], List.getElem?_eq_getElem hjw, hg⟩
  obtain ⟨x, x1, r, a', x2, x3, x4, x5, x6, x7⟩ := hst
  simp only [XR.fin.injEq] at x3
  subst x3
  have hN' : (N'.weights n)[j]? = some (add x (mul eta (exp s))) := by
    rw [← e1]
    simpa [Net.weights, q1] using q3 j b x hj x1
  obtain ⟨E, hE⟩ : ∃ E, E = (8 * (K : ℝ) + 5) * ε * H := ⟨_, rfl⟩
  rw [← hE] at e5 hsmall ⊢
  have hKε : 0 ≤ (8 * (K : ℝ) + 5) * ε := mul_nonneg (by linarith) hε0
  have hE0 : 0 ≤ E := by rw [hE]; exact mul_nonneg hKε hH0
  have hH1 : (1 : ℝ) ≤ H := by
    have hS1 : 1 ≤ scopeSize M S := by
      exact (Set.ncard_pos (inScope_finite M S)).2 (hsc S Relation.ReflTransGen.refl)
    have : 1 ≤ H := by rw [hH]; nlinarith
    exact_mod_cast this
  have hεE : 13 * ε ≤ E := by
    rw [hE]
    have i1 : 13 * ε ≤ (8 * (K : ℝ) + 5) * ε := mul_le_mul_of_nonneg_right (by linarith) hε0
    have i2 : (8 * (K : ℝ) + 5) * ε * 1 ≤ (8 * (K : ℝ) + 5) * ε * H := mul_le_mul_of_nonneg_left hH1 hKε
    linarith
  have hra : |r - a| ≤ 2 * E * a := by
    by_cases ha : a = 0
    · subst ha; rw [x6.2 rfl]; simp
    · have hr0 : r ≠ 0 := fun h => ha (x6.1 h)
      have hrp : 0 < r := lt_of_le_of_ne x4 (Ne.symm hr0)
      have hap : 0 < a := lt_of_le_of_ne x5 (Ne.symm ha)
      have := C131_relative (e := ε) (x := .fin (Real.log r)) (y := .fin (Real.log a)) (x7 ha).2 (by linarith)
      simp only [unlog_fin, Real.exp_log hrp, Real.exp_log hap] at this
      have : 2 * ε * a ≤ 2 * E * a := mul_le_mul_of_nonneg_right (by linarith) hap.le
      linarith
  refine ⟨a, unlog y, _, e3, x5, e4, unlog_nonneg' _, hN', fun g1 g2 => ?_⟩
  obtain ⟨z, z1, z2⟩ := step_weight (a := a) (G := G) hF hM hu (by linarith) hη (by linarith) he hsmall hE0 heta x2 x4 hra x5 e5 g2 g1 hΩG
  refine ⟨z, z1, le_trans z2 ?_⟩
  have : (8 * E + 20 * u) * (a + e * unlog y) ≤ 9 * E * (a + e * unlog y) :=
    mul_le_mul_of_nonneg_right (by linarith) (add_nonneg x5 (mul_nonneg he (unlog_nonneg' _)))
  linarith

/-- C133 with normalisation, the default. At a sum node whose weights and partial derivatives are at most `G`, where none of the moved weights is so small that it underflows, the new weights are the exact shares of the exact
moved weights, up to a factor between `exp (-δ)` and `exp δ` for `δ = 40·(8K + 5)·ε·H + 2u·(n + 1)` and `n` children. -/
theorem C133_normalised (N : Net ι F) (M : Net ι XR) (S : ι) (I : VarSet) (K D H : ℕ) (L u η τ Ω B ε G e : ℝ) (eta : F) (rank : ι → ℕ) (hF : StdFloat val u η Ω) (hP : PairFloat val)
    (hM : MulFloat val u η Ω) (hV : DivFloat val u τ Ω) (hu : 0 ≤ u) (hη : 0 ≤ η)
    (hrank : ∀ u, ∀ c ∈ M.ch u, rank c < rank u) (hdec : IsDecomposable M S) (hw : NonnegWeights M S) (hsc : ∀ n, Reach M.ch S n → ∃ v, InScope M n v)
    (hch : ∀ n, M.ch n = N.ch n) (hL : Real.log K ≤ L) (hL2 : Real.log 2 ≤ L) (hK : 1 ≤ K) (hs : ∀ n, Reach M.ch S n → StoresNode val K L ε (StoresLeaf val I L ε) (N.kind n) (M.kind n))
    (hD : ∀ n, Reach M.ch S n → inDegree M S n ≤ D) (hH : H = scopeSize M S * (2 * rank S + 1) + rank S * D) (hB : B = L * (H + 1) + K + 4) (hε : 2 * u * B + η ≤ ε) (hΩ : 2 * B ≤ Ω)
    (hsmall : (8 * K + 5) * ε * H ≤ 1) (hso : SiblingOrdered N.ch S) (hS : N.ch S ≠ []) (hne : ∀ n cs w, N.kind n = .sum cs w → cs ≠ []) (isStack : Bool) (hord : GoodSearch M S isStack)
    (he : 0 ≤ e) (heta : val eta = .fin e) (hΩG : 20 * (1 + e) * (1 + G) ≤ Ω)
    (hsmall2 : 40 * ((8 * K + 5) * ε * H) + 2 * u * (K + 1 : ℕ) ≤ 1)
    (ops : List (StOp ι F)) (c : Client ι F) (outs : List (StOut F)) (hr : Client.new.run ops = some (c, outs)) :
    ∃ st1 st2 N', N.storeInference S I (-1) c.s = some (some (S, c.s.tickets), st1) ∧ N.deriveSPN S st1 (-1) c.s.tickets isStack = some (c.s.tickets + 1, st2) ∧
      N.deriveApplyWeights S eta st2 (c.s.tickets + 1) c.s.tickets isStack true = some N' ∧
      (∀ n, (¬ Reach N.ch S n ∨ N.type n ≠ .sum) → N'.kind n = N.kind n) ∧
      ∀ n, Reach N.ch S n → ∀ cs w, N.kind n = .sum cs w → ∃ (w' : List F) (as ds : List ℝ), N'.kind n = .sum cs w' ∧ M.weights n = as.map XR.fin ∧ as.length = cs.length ∧ ds.length = cs.length ∧
        (∀ j a d, as[j]? = some a → ds[j]? = some d → 0 ≤ a ∧ 0 ≤ d ∧ IsWeightPartial M S (M.prob I) n j a d) ∧
        ∀ t, t = List.zipWith (fun a d => a + e * d) as ds → (∀ a ∈ as, a ≤ G) → (∀ d ∈ ds, d ≤ G) →
          (∀ x ∈ t, 0 < x ∧ (4 * e + 3) * η ≤ (8 * K + 5) * ε * H * x ∧ 3 * τ ≤ x / t.sum) → 3 * t.sum ≤ Ω →
          List.Forall₂ (fun z x => ∃ q, val z = .fin q ∧ NearReal (40 * ((8 * K + 5) * ε * H) + 2 * u * (cs.length + 1 : ℕ)) q (x / t.sum)) w' t := by
  obtain ⟨st1, st2, N1, h1, h2, h3, _, h5⟩ := C133_step N M S I K D H L u η Ω B ε G e eta rank hF hP hM hu hη hrank hdec hw hsc hch hL hL2 hK hs hD hH hB hε hΩ hsmall hso hS hne isStack hord he heta hΩG ops c outs hr
  have hlen : ∀ n, Reach N.ch S n → ∀ cs w, N.kind n = .sum cs w → cs.length ≤ K ∧ w.length = cs.length ∧ ∃ as : List ℝ, M.weights n = as.map XR.fin ∧ as.length = cs.length := by
    intro n hn cs w hk
    have hnM : Reach M.ch S n := by rw [funext hch]; exact hn
    have h6 := hs n hnM
    rw [hk] at h6
    cases hkM : M.kind n with
    | product _ => rw [hkM] at h6; exact absurd h6 id
    | leaf _ => rw [hkM] at h6; exact absurd h6 id
    | sum ds q =>
      rw [hkM] at h6
      obtain ⟨_, r, r1, r2, _⟩ := hw n hnM ds q hkM
      have e1 := h6.1
      subst e1
      refine ⟨h6.2.2.1, ?_, r, by simp [Net.weights, hkM, r1], r2⟩
      rw [h6.2.2.2.2.length_eq, r1, List.length_map, r2]
  have hle : ∀ n, Reach N.ch S n → ∀ cs w, N.kind n = .sum cs w → cs.length ≤ w.length := fun n hn cs w hk => (hlen n hn cs w hk).2.1.ge
  obtain ⟨N1', m1, _, m3⟩ := C33_apply N S eta st2 (c.s.tickets + 1) c.s.tickets isStack false hle
  obtain ⟨N', n1, n2, n3⟩ := C33_apply N S eta st2 (c.s.tickets + 1) c.s.tickets isStack true hle
  rw [h3] at m1
  simp only [Option.some.injEq] at m1
  subst m1
  refine ⟨st1, st2, N', h1, h2, n1, n2, ?_⟩
  intro n hn cs w hk
  obtain ⟨hcK, hwl, as, has, hasl⟩ := hlen n hn cs w hk
  obtain ⟨w1, a1, a2, a3, _⟩ := m3 n hn cs w hk
  obtain ⟨w2, b1, b2, b3, _⟩ := n3 n hn cs w hk
  simp only [Bool.false_eq_true, if_false] at a1
  simp only [if_true] at b1
  have hww : w2 = w1 := by
    apply List.ext_getElem?
    intro i
    by_cases hi : i < w.length
    · have hc : cs[i]? = some (cs[i]'(by omega)) := List.getElem?_eq_getElem _
      have hx : w[i]? = some w[i] := List.getElem?_eq_getElem hi
      rw [a3 i _ _ hc hx, b3 i _ _ hc hx]
    · rw [List.getElem?_eq_none (by omega), List.getElem?_eq_none (by omega)]
  subst hww
  have hedge : ∀ j (hj : j < cs.length), ∃ d w', 0 ≤ as.getD j 0 ∧ 0 ≤ d ∧ IsWeightPartial M S (M.prob I) n j (as.getD j 0) d ∧ w2[j]? = some w' ∧
      (as.getD j 0 ≤ G → d ≤ G → ∃ z, val w' = .fin z ∧ |z - (as.getD j 0 + e * d)| ≤ 9 * ((8 * K + 5) * ε * H) * (as.getD j 0 + e * d) + (4 * e + 3) * η) := by
    intro j hj
    obtain ⟨a, d, w', g1, g2, g3, g4, g5, g6⟩ := h5 n j cs[j] ⟨hn, cs, w, hk, List.getElem?_eq_getElem hj⟩
    have ha : as.getD j 0 = a := by
      rw [has, List.getElem?_map] at g1
      obtain ⟨a', h, h'⟩ := Option.map_eq_some_iff.1 g1
      simp only [XR.fin.injEq] at h'
      simp [h, h']
    rw [ha]
    exact ⟨d, w', g2, g4, g3, by simpa [Net.weights, a1] using g5, g6⟩
  choose! d hd using hedge
  refine ⟨_, as, (List.range cs.length).map d, b1, has, hasl, by simp, ?_, ?_⟩
  · intro j a x ha hx
    have hj : j < cs.length := by
      have := (List.getElem?_eq_some_iff.1 ha).1
      omega
    obtain ⟨w', g1, g2, g3, _⟩ := hd j hj
    have e1 : as.getD j 0 = a := by simp [ha]
    have e2 : d j = x := by simpa [hj] using hx
    rw [e1] at g1 g3; rw [e2] at g2 g3
    exact ⟨g1, g2, g3⟩
  · intro t ht hGa hGd hx hΩt
    obtain ⟨E, hE⟩ : ∃ E, E = (8 * (K : ℝ) + 5) * ε * H := ⟨_, rfl⟩
    rw [← hE] at hsmall2 hd hx ⊢
    have hK1 : (1 : ℝ) ≤ K := by exact_mod_cast hK
    have hε0 : 0 ≤ ε := by
      have hL0 : 0 ≤ L := le_trans (Real.log_nonneg hK1) hL
      have : 0 ≤ B := by rw [hB]; positivity
      have := mul_nonneg hu this
      linarith
    have hE0 : 0 ≤ E := by rw [hE]; positivity
    have hcl : (cs.length : ℝ) ≤ K := by exact_mod_cast hcK
    have hucs : 2 * u * (cs.length + 1 : ℕ) ≤ 2 * u * (K + 1 : ℕ) := by
      push_cast
      exact mul_le_mul_of_nonneg_left (by linarith) (by linarith)
    have htl : t.length = cs.length := by rw [ht]; simp [hasl]
    have hw2l : w2.length = cs.length := by rw [b2, hwl]
    have hu0 : 0 ≤ 2 * u * ((K + 1 : ℕ) : ℝ) := by positivity
    have hK2 : (2 : ℝ) ≤ ((K + 1 : ℕ) : ℝ) := by push_cast; linarith
    have hu4 : u ≤ 1 / 2 := by nlinarith
    -- the moved weights
    have hnear : List.Forall₂ (fun z x => ∃ r, val z = .fin r ∧ 0 ≤ x ∧ NearReal (20 * E) r x) w2 t := by
      rw [List.forall₂_iff_get]
      refine ⟨by rw [htl, hw2l], fun i h h' => ?_⟩
      simp only [List.get_eq_getElem]
      have hi : i < cs.length := by omega
      obtain ⟨w', g1, g2, g3, g4, g5⟩ := hd i hi
      have hw' : w2[i] = w' := by rw [List.getElem?_eq_getElem h] at g4; simpa using g4
      have hai : as.getD i 0 ∈ as := by
        have : i < as.length := by omega
        simp [this]
      have hti : t[i] = as.getD i 0 + e * d i := by
        subst ht
        have : i < as.length := by omega
        simp [this]
      obtain ⟨z, z1, z2⟩ := g5 (hGa _ hai) (hGd _ (List.mem_map.2 ⟨i, List.mem_range.2 hi, rfl⟩))
      obtain ⟨p1, p2, _⟩ := hx t[i] (List.getElem_mem h')
      rw [← hti] at z2
      refine ⟨z, by rw [hw', z1], p1.le, ?_⟩
      have := nearReal_of_rel (u := 10 * E) p1.le (by linarith) (by linarith) (le_trans z2 (by linarith))
      rwa [show 2 * (10 * E) = 20 * E by ring] at this
    -- no shift
    obtain ⟨r, hr1, hr2⟩ : ∃ r : List ℝ, w2.map val = r.map XR.fin ∧ ∀ x ∈ r, 0 ≤ x := by
      clear * - hnear
      induction hnear with
      | nil => exact ⟨[], rfl, by simp⟩
      | cons h _ ih =>
        obtain ⟨r, r1, r2⟩ := ih
        obtain ⟨q, q1, q2, q3⟩ := h
        exact ⟨q :: r, by simp [q1, r1], by
          intro x hx
          rcases List.mem_cons.1 hx with rfl | hx
          · exact q3.nonneg q2
          · exact r2 x hx⟩
    have hmin : val (minZero w2) = .fin 0 := by rw [minZero_near hV hr1, minOrZero_eq_zero hr2]
    have hnorm : learnNormalize w2 = divSum w2 := by
      unfold learnNormalize
      dsimp only
      rw [hV.lt, hmin, hV.zero]
      have : XR.lt (.fin 0) (.fin 0) = false := by simp [XR.lt]
      rw [this, if_neg (by simp)]
    rw [hnorm]
    have hne' : t ≠ [] := by
      intro h
      rw [h] at htl
      exact hne n cs w hk (List.length_eq_zero_iff.1 htl.symm)
    have hpos : 0 < t.sum := by
      cases t with
      | nil => exact absurd rfl hne'
      | cons x t =>
        rw [List.sum_cons]
        have q1 := (hx x (by simp)).1
        have q2 : 0 ≤ t.sum := List.sum_nonneg fun y hy => (hx y (by simp [hy])).1.le
        linarith
    have hG0 : 0 ≤ G := by
      have h0 : 0 < cs.length := by rw [← htl]; exact List.length_pos_iff.2 hne'
      obtain ⟨_, g1, _⟩ := hd 0 h0
      have : as.getD 0 0 ∈ as := by
        have : 0 < as.length := by omega
        simp [this]
      exact le_trans g1 (hGa _ this)
    have := divSum_near hV hu hu4 (d := 20 * E) (by linarith) hnear hpos (by rw [hw2l]; linarith) hΩt (by nlinarith) (fun x h => Or.inr (hx x h).2.2)
    rw [hw2l, show 2 * (20 * E) = 40 * E by ring] at this
    exact this

theorem Fixed.mul_law (Ω : ℝ) : MulFloat Fixed.get 0 (1 / 2 ^ 21) Ω := by
  intro a b x y ha hb _
  obtain ⟨z, hz, he⟩ := Fixed.fl_fin (x * y)
  refine ⟨z, ?_, by rw [zero_mul, zero_add]; exact he⟩
  show (Fixed.fl (XR.mul a.get b.get)).get = _
  rw [ha, hb]
  exact hz

theorem Biased.mul_law (Ω : ℝ) : MulFloat Biased.get (1 / 2 ^ 20) 0 Ω := by
  intro a b x y ha hb _
  obtain ⟨z, hz, he⟩ := Biased.fl_fin (x * y)
  refine ⟨z, ?_, by rw [add_zero]; exact he⟩
  show (Biased.fl (XR.mul a.get b.get)).get = _
  rw [ha, hb]
  exact hz

theorem Biased.pair : PairFloat Biased.get where
  le _ _ := rfl
  one := by
    show XR.fin ((1 : Int) : ℝ) = _
    simp

/-- `mixNet` in biased arithmetic. -/
noncomputable def biasedMix : Net (Fin 7) Biased := ⟨![.sum [1, 2] [⟨.fin (1 / 4)⟩, ⟨.fin (3 / 4)⟩], .product [3, 4], .product [5, 6],
  .leaf (.multinomial [0] 0 [⟨.fin (1 / 2)⟩, ⟨.fin (1 / 2)⟩] 1 ⟨.fin (1 / 2)⟩),
  .leaf (.multinomial [1] 1 [⟨.fin (1 / 3)⟩, ⟨.fin (2 / 3)⟩] 1 ⟨.fin (2 / 3)⟩),
  .leaf (.indicator 0 0), .leaf (.multinomial [1] 1 [⟨.fin 1⟩, ⟨.fin 0⟩] 0 ⟨.fin 1⟩)]⟩

theorem biasedMix_ch (n : Fin 7) : mixNet.ch n = biasedMix.ch n := by
  fin_cases n <;> rfl

theorem stores_biased {L δ x : ℝ} (hx : 0 < x) (hδ : 0 ≤ δ) (h : |Real.log x| ≤ L) : Stores Biased.get L δ ⟨.fin x⟩ (.fin x) :=
  ⟨x, x, rfl, rfl, hx.le, hx.le, Iff.rfl, fun _ => ⟨h, by simpa using hδ⟩⟩

theorem biasedMix_stores (n : Fin 7) :
    StoresNode Biased.get 2 3 (90 / 2 ^ 20) (StoresLeaf Biased.get (VarSet.single 1 0) 3 (90 / 2 ^ 20)) (biasedMix.kind n) (mixNet.kind n) := by
  have hl2 : 0 ≤ Real.log 2 := Real.log_nonneg (by norm_num)
  have up : ∀ {x : ℝ}, |Real.log x| ≤ 3 - Real.log 2 → |Real.log x| ≤ 3 := fun h => by linarith
  have hv : ∀ {v u : Int} {m : ℕ}, 2 ≤ m → VarSet.single 1 0 v = some u → 0 ≤ u ∧ u < m := by
    intro v u m hm h
    unfold VarSet.single at h
    split at h
    · cases h
      omega
    · cases h
  fin_cases n
  · refine ⟨rfl, by simp, le_rfl, le_rfl, .cons ?_ (.cons ?_ .nil)⟩
    · exact stores_biased (by norm_num) (by positivity) (by norm_num; exact log_quarter (by norm_num) (by norm_num))
    · exact stores_biased (by norm_num) (by positivity) (by norm_num; exact log_quarter (by norm_num) (by norm_num))
  · rfl
  · rfl
  · refine ⟨rfl, .cons ?_ (.cons ?_ .nil), fun u h => hv le_rfl h⟩
    · exact stores_biased (by norm_num) (by positivity) (up (log_quarter (by norm_num) (by norm_num)))
    · exact stores_biased (by norm_num) (by positivity) (up (log_quarter (by norm_num) (by norm_num)))
  · refine ⟨rfl, .cons ?_ (.cons ?_ .nil), fun u h => hv le_rfl h⟩
    · exact stores_biased (by norm_num) (by positivity) (up (log_quarter (by norm_num) (by norm_num)))
    · exact stores_biased (by norm_num) (by positivity) (up (log_quarter (by norm_num) (by norm_num)))
  · exact ⟨rfl, rfl⟩
  · refine ⟨rfl, .cons ?_ (.cons ?_ .nil), fun u h => hv le_rfl h⟩
    · exact stores_biased (by norm_num) (by positivity) (by simp)
    · exact ⟨0, 0, rfl, rfl, le_rfl, le_rfl, Iff.rfl, fun h => absurd rfl h⟩

/-- The hypotheses of `C133_step` that are not among those of `C131_standard`, for the network and the arithmetic of the example there. -/
example : MulFloat Fixed.get 0 (1 / 2 ^ 21) 1000 ∧ (0 : ℝ) ≤ 1 / 2 ∧ Fixed.get ⟨.fin (1 / 2)⟩ = .fin (1 / 2) ∧ 20 * (1 + 1 / 2) * (1 + 1) ≤ (1000 : ℝ) :=
  ⟨Fixed.mul_law _, by norm_num, rfl, by norm_num⟩

/-- The hypotheses of `C133_normalised`, in an arithmetic in which every result is wrong. -/
example : StdFloat Biased.get (1 / 2 ^ 20) 0 1000 ∧ PairFloat Biased.get ∧ MulFloat Biased.get (1 / 2 ^ 20) 0 1000 ∧ DivFloat Biased.get (1 / 2 ^ 20) (1 / 2 ^ 40) 1000 ∧
    (∀ n, mixNet.ch n = biasedMix.ch n) ∧ (∀ n, Reach mixNet.ch 0 n → StoresNode Biased.get 2 3 (90 / 2 ^ 20) (StoresLeaf Biased.get (VarSet.single 1 0) 3 (90 / 2 ^ 20)) (biasedMix.kind n) (mixNet.kind n)) ∧
    (45 : ℝ) = 3 * ((12 : ℕ) + 1) + (2 : ℕ) + 4 ∧ 2 * (1 / 2 ^ 20) * (45 : ℝ) + 0 ≤ 90 / 2 ^ 20 ∧ (8 * ((2 : ℕ) : ℝ) + 5) * (90 / 2 ^ 20) * ((12 : ℕ) : ℝ) ≤ 1 ∧
    40 * ((8 * ((2 : ℕ) : ℝ) + 5) * (90 / 2 ^ 20) * ((12 : ℕ) : ℝ)) + 2 * (1 / 2 ^ 20) * ((2 + 1 : ℕ) : ℝ) ≤ 1 ∧
    SiblingOrdered biasedMix.ch 0 ∧ biasedMix.ch 0 ≠ [] ∧ (∀ n cs w, biasedMix.kind n = .sum cs w → cs ≠ []) ∧ 20 * (1 + 1 / 2) * (1 + 1) ≤ (1000 : ℝ) := by
  have hch : mixNet.ch = biasedMix.ch := funext biasedMix_ch
  refine ⟨Biased.std _, Biased.pair, Biased.mul_law _, Biased.div_law _ _, biasedMix_ch, fun n _ => biasedMix_stores n, by norm_num, by norm_num, by norm_num, by norm_num,
    by rw [← hch]; exact mixNet_siblings, by rw [← hch]; decide, ?_, by norm_num⟩
  intro n cs w h
  fin_cases n <;> simp [biasedMix] at h
  rw [← h.1]; simp

end Gospn
