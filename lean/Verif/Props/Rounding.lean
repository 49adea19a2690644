import Verif.Proofs.Rounding
import Verif.Props.Semantics
/-!
Property C99: rounding errors are not amplified by evaluation in log space.
-/
set_option linter.unusedSectionVars false
set_option linter.unusedSimpArgs false
namespace Gospn
open Spec
variable {ι F : Type} [DecidableEq ι] [Fintype ι] [GoFloat F] {val : F → XR}

/-- C99 (any leaves whose own value is accurate). Let the arithmetic be off by at most `ε` on the range that is needed, and let `N` store the network `M` of real numbers: sums with at most `K` children and
weights that are zero or have logarithms of absolute value at most `L - log K`, stored with an error of at most `ε` in the logarithm, and leaves whose value is off by at most `2ε`.
Then `n.Value(I)` returns for every node below `S`, and what it returns differs from the exact value of `M` by at most `(8K + 5)·ε` times the cost of the node; it is minus infinity exactly
if the exact value is. The cost adds up over products but not over sums. The exact value is minus infinity or at most `L` times the cost in absolute value. -/
theorem C99_value (N : Net ι F) (M : Net ι XR) (S : ι) (I : VarSet) (K : ℕ) (L ε : ℝ) (cost : ι → ℕ) (hac : Acyclic N.ch) (hR : RoundsOn val (L * (cost S + 1) + K + 4) ε)
    (hL : Real.log K ≤ L) (hK : 1 ≤ K) (hs : StoresNet val N S K L ε (ValueWithin val I L (2 * ε)) M) (hcost : Cost N S cost)
    (hsmall : (8 * K + 5) * ε * cost S ≤ 1) (hcS : 1 ≤ cost S) (n : ι) (hn : Reach N.ch S n) :
    ∃ v y, N.value I n = some v ∧ M.value I n = some y ∧ Within ((8 * K + 5) * ε * cost n) (val v) y ∧ absVal y ≤ L * cost n := by
  have hL0 : 0 ≤ L := le_trans (Real.log_nonneg (by exact_mod_cast hK)) hL
  exact value_close hac hR hL0 hL hK hs hcost hsmall hcS n hn

/-- The number of roundings that matter in a decomposable network is at most the number of variables times twice the height plus one. -/
theorem C99_cost (N : Net ι F) (S : ι) (rank : ι → ℕ) (hrank : ∀ u, ∀ c ∈ N.ch u, rank c < rank u) (hdec : IsDecomposable N S)
    (hsc : ∀ n, Reach N.ch S n → ∃ v, InScope N n v) : Cost N S fun n => scopeSize N n * (2 * rank n + 1) := cost_scope hrank hdec hsc

/-- C99 (the standard model of floating point arithmetic). Let `M` be a network of real numbers that is complete and decomposable, with non-negative weights and discrete distributions as leaves, whose sums have at
most `K` children, with weights and probabilities that are zero or have logarithms of absolute value at most `L - log K`, over `s` variables and of height `h`. Let `N` store it in floats with error at most `ε` in the logarithm of
each number. Put `T = s·(2h + 1)` and `B = L·(T + 1) + K + 4`, and let `ε` be at least `2·u·B + η`. As long as `(8K + 5)·ε·T ≤ 1` and `B` is far from overflow, `S.Value(I)` returns a number within `(8K + 5)·ε·T` of the
logarithm of the sum of the values of all completions of `I`, and minus infinity exactly if that sum is zero. -/
theorem C99_standard (N : Net ι F) (M : Net ι XR) (S : ι) (I : VarSet) (dom : Int → Finset Int) (K T : ℕ) (L u η Ω B ε : ℝ) (rank : ι → ℕ) (hF : StdFloat val u η Ω) (hu : 0 ≤ u) (hη : 0 ≤ η)
    (hrank : ∀ u, ∀ c ∈ M.ch u, rank c < rank u) (hcomp : IsComplete M S) (hdec : IsDecomposable M S) (hw : NonnegWeights M S) (hl : DiscreteLeaves M S dom)
    (hI : InDomain M S (fun v => (dom v : Set Int)) I) (hsc : ∀ n, Reach M.ch S n → ∃ v, InScope M n v)
    (hch : ∀ n, M.ch n = N.ch n) (hL : Real.log K ≤ L) (hK : 1 ≤ K) (hs : ∀ n, Reach M.ch S n → StoresNode val K L ε (StoresLeaf val I L ε) (N.kind n) (M.kind n))
    (hT : T = scopeSize M S * (2 * rank S + 1)) (hB : B = L * (T + 1) + K + 4) (hε : 2 * u * B + η ≤ ε) (hΩ : 2 * B ≤ Ω) (hsmall : (8 * K + 5) * ε * T ≤ 1) :
    ∃ (v : F) (x : XR) (C : Finset VarSet) (f : VarSet → XR), N.value I S = some v ∧ Within ((8 * K + 5) * ε * T) (val v) x ∧ (∀ J, J ∈ C ↔ Completion M S dom I J) ∧
      (∀ J ∈ C, M.value J S = some (f J) ∧ IsLogProb (f J)) ∧ unlog x = ∑ J ∈ C, unlog (f J) ∧ absVal x ≤ L * T := by
  have hK1 : (1 : ℝ) ≤ K := by exact_mod_cast hK
  have hL0 : 0 ≤ L := le_trans (Real.log_nonneg hK1) hL
  have hT0 : (0 : ℝ) ≤ T := Nat.cast_nonneg _
  have hLT : 0 ≤ L * T := mul_nonneg hL0 hT0
  have hB5 : 5 ≤ B := by nlinarith
  have huB : 0 ≤ u * B := mul_nonneg hu (by linarith)
  have hε0 : 0 ≤ ε := by nlinarith
  have hR : RoundsOn val B ε := hF.roundsOn hu hΩ (by linarith) (by linarith) (by nlinarith) (by nlinarith)
  have hcS : 1 ≤ T := by
    have : 1 ≤ scopeSize M S := (Set.ncard_pos (inScope_finite M S)).2 (hsc S Relation.ReflTransGen.refl)
    rw [hT]
    nlinarith
  have hcS1 : (1 : ℝ) ≤ T := by exact_mod_cast hcS
  have hε1 : ε ≤ 1 := by
    have h1 : 0 ≤ ε * T := mul_nonneg hε0 hT0
    nlinarith [mul_nonneg (by linarith : (0 : ℝ) ≤ K) h1]
  have hchf : M.ch = N.ch := funext hch
  have hst : StoresNet val N S K L ε (ValueWithin val I L (2 * ε)) M := by
    refine ⟨hch, fun n hn => ?_⟩
    have hn2 := hs n (by rw [hchf]; exact hn)
    revert hn2
    cases N.kind n <;> cases M.kind n <;> try exact id
    intro h
    obtain ⟨v, y, h1, h2, h3, h4⟩ := storesLeaf_close hR hL0 hε0 (by nlinarith) h
    exact ⟨v, y, h1, h2, h3.mono (by linarith), h4⟩
  have hcost : Cost M S fun n => scopeSize M n * (2 * rank n + 1) := C99_cost M S rank hrank hdec hsc
  have hcost' : Cost N S fun n => scopeSize M n * (2 * rank n + 1) := by
    intro n hn
    have h1 := hcost n (by rw [hchf]; exact hn)
    have h2 := hst.2 n hn
    cases hk : N.kind n with
    | leaf l =>
      cases hm : M.kind n <;> rw [hk, hm] at h2
      · exact absurd h2 id
      · exact absurd h2 id
      · rw [hm] at h1; exact h1
    | sum cs w =>
      cases hm : M.kind n <;> rw [hk, hm] at h2
      · rw [hm] at h1
        rw [h2.1]
        exact h1
      · exact absurd h2 id
      · exact absurd h2 id
    | product cs =>
      cases hm : M.kind n <;> rw [hk, hm] at h2
      · exact absurd h2 id
      · rw [hm] at h1
        rw [show cs = _ from h2]
        exact h1
      · exact absurd h2 id
  have hac : Acyclic N.ch := ⟨rank, by rw [← hchf]; exact hrank⟩
  rw [hB, hT] at hR
  rw [hT] at hsmall hcS
  obtain ⟨v, y, h1, h2, h3, h5⟩ := C99_value N M S I K L ε (fun n => scopeSize M n * (2 * rank n + 1)) hac hR hL hK hst hcost' hsmall hcS S Relation.ReflTransGen.refl
  obtain ⟨x, C, f, h4, _, h6, h7, h8⟩ := C06_value_marginal_unnormalised M S dom I ⟨rank, hrank⟩ hcomp hdec hw hl hI
  rw [h2] at h4
  cases h4
  rw [hT]
  exact ⟨v, y, C, f, h1, h3, h6, h7, h8, h5⟩

/-- C99 (`Inference`). On networks where `TopSortTarjan` lists children first, `Inference` has the same error as `Value`. -/
theorem C99_inference (N : Net ι F) (M : Net ι XR) (S : ι) (I : VarSet) (K : ℕ) (L ε : ℝ) (cost : ι → ℕ) (hac : Acyclic N.ch) (hso : SiblingOrdered N.ch S) (hS : N.ch S ≠ [])
    (hR : RoundsOn val (L * (cost S + 1) + K + 4) ε) (hL : Real.log K ≤ L) (hK : 1 ≤ K) (hs : StoresNet val N S K L ε (ValueWithin val I L (2 * ε)) M) (hcost : Cost N S cost)
    (hsmall : (8 * K + 5) * ε * cost S ≤ 1) (hcS : 1 ≤ cost S) :
    ∃ v y, N.inference S I = some v ∧ M.inference S I = some y ∧ Within ((8 * K + 5) * ε * cost S) (val v) y := by
  have hch : M.ch = N.ch := funext hs.1
  rw [C03_inference_eq_value_partial N S I hac hso hS, C03_inference_eq_value_partial M S I (by rw [hch]; exact hac) (by rw [hch]; exact hso) (by rw [hch]; exact hS)]
  obtain ⟨v, y, h1, h2, h3, _⟩ := C99_value N M S I K L ε cost hac hR hL hK hs hcost hsmall hcS S Relation.ReflTransGen.refl
  exact ⟨v, y, h1, h2, h3⟩

/-! ### A rounding arithmetic -/

/-- Fixed point numbers: every result of an operation is rounded to a multiple of `2⁻²⁰`. -/
structure Fixed where
  get : XR

namespace Fixed

/-- Rounding to the nearest multiple of `2⁻²⁰`. -/
noncomputable def fl : XR → Fixed
  | .fin r => ⟨.fin (round (r * 2 ^ 20) / 2 ^ 20)⟩
  | x => ⟨x⟩

theorem fl_fin (r : ℝ) : ∃ z, (fl (.fin r)).get = .fin z ∧ |z - r| ≤ 1 / 2 ^ 21 := by
  refine ⟨_, rfl, ?_⟩
  have h := abs_sub_round (r * 2 ^ 20)
  have e : (round (r * 2 ^ 20) : ℝ) / 2 ^ 20 - r = -(r * 2 ^ 20 - round (r * 2 ^ 20)) / 2 ^ 20 := by
    field_simp
    ring
  rw [e, abs_div, abs_neg, abs_of_pos (by positivity : (0 : ℝ) < 2 ^ 20), div_le_iff₀ (by positivity)]
  norm_num at h ⊢
  exact h

noncomputable instance : GoFloat Fixed where
  ofInt n := ⟨.fin n⟩
  add a b := fl (XR.add a.get b.get)
  sub a b := fl (XR.sub a.get b.get)
  mul a b := fl (XR.mul a.get b.get)
  div a b := fl (XR.div a.get b.get)
  log a := fl (XR.log a.get)
  exp a := fl (XR.exp a.get)
  log1p a := fl (GoFloat.log1p a.get)
  sqrt a := fl (XR.sqrt a.get)
  ninf := ⟨.ninf⟩
  lt a b := XR.lt a.get b.get
  le a b := GoFloat.le a.get b.get
  eq a b := XR.eq a.get b.get
  isInf a := XR.isInf a.get
  toInt a := XR.toInt a.get
  round a := fl (XR.round a.get)
  floor a := fl (XR.floor a.get)
  abs a := fl (XR.abs a.get)
  pinf := ⟨.pinf⟩
  normLogProb m s x := fl (XR.normLogProb m.get s.get x.get)

theorem std (Ω : ℝ) : StdFloat Fixed.get 0 (1 / 2 ^ 21) Ω where
  zero := by
    show XR.fin ((0 : Int) : ℝ) = _
    simp
  ninf := rfl
  lt _ _ := rfl
  isInf _ := rfl
  add a b x y ha hb _ := by
    obtain ⟨z, hz, he⟩ := fl_fin (x + y)
    refine ⟨z, ?_, by simpa using he⟩
    show (fl (XR.add a.get b.get)).get = _
    rw [ha, hb]
    exact hz
  add_left a b ha hb := by
    show (fl (XR.add a.get b.get)).get = _
    rw [ha]
    rcases IsLogProb.cases hb with h | ⟨r, h⟩ <;> rw [h] <;> rfl
  add_right a b ha hb := by
    show (fl (XR.add a.get b.get)).get = _
    rw [hb]
    rcases IsLogProb.cases ha with h | ⟨r, h⟩ <;> rw [h] <;> rfl
  sub a b x y ha hb _ := by
    obtain ⟨z, hz, he⟩ := fl_fin (x - y)
    refine ⟨z, ?_, by simpa using he⟩
    show (fl (XR.sub a.get b.get)).get = _
    rw [ha, hb, XR.sub_fin]
    exact hz
  sub_left a b y ha hb := by
    show (fl (XR.sub a.get b.get)).get = _
    rw [ha, hb]
    rfl
  exp a x ha _ := by
    obtain ⟨z, hz, he⟩ := fl_fin (Real.exp x)
    refine ⟨z, ?_, by simpa using he⟩
    show (fl (XR.exp a.get)).get = _
    rw [ha]
    exact hz
  exp_ninf a ha := by
    show (fl (XR.exp a.get)).get = _
    rw [ha, XR.exp_ninf]
    simp [fl]
  log a x ha hx _ := by
    obtain ⟨z, hz, he⟩ := fl_fin (Real.log x)
    refine ⟨z, ?_, by simpa using he⟩
    show (fl (XR.log a.get)).get = _
    rw [ha, XR.log_pos hx]
    exact hz
  log_zero a ha := by
    show (fl (XR.log a.get)).get = _
    rw [ha, XR.log_zero]
    rfl

end Fixed

/-- The network of the examples as stored in fixed point numbers; 1/3 and 2/3 are rounded. -/
noncomputable def fixedNet : Net (Fin 7) Fixed := ⟨![.sum [1, 2] [⟨.fin (1 / 4)⟩, ⟨.fin (3 / 4)⟩], .product [3, 4], .product [5, 6],
  .leaf (.multinomial [0] 0 [⟨.fin (1 / 2)⟩, ⟨.fin (1 / 2)⟩] 1 ⟨.fin (1 / 2)⟩),
  .leaf (.multinomial [1] 1 [⟨.fin (349525 / 2 ^ 20)⟩, ⟨.fin (699051 / 2 ^ 20)⟩] 1 ⟨.fin (699051 / 2 ^ 20)⟩),
  .leaf (.indicator 0 0), .leaf (.multinomial [1] 1 [⟨.fin 1⟩, ⟨.fin 0⟩] 0 ⟨.fin 1⟩)]⟩

theorem stores_same {L δ x : ℝ} (hx : 0 < x) (hδ : 0 ≤ δ) (h : |Real.log x| ≤ L) : Stores Fixed.get L δ ⟨.fin x⟩ (.fin x) :=
  ⟨x, x, rfl, rfl, hx.le, hx.le, Iff.rfl, fun _ => ⟨h, by simpa using hδ⟩⟩

theorem stores_zero {L δ : ℝ} : Stores Fixed.get L δ ⟨.fin 0⟩ (.fin 0) :=
  ⟨0, 0, rfl, rfl, le_rfl, le_rfl, Iff.rfl, fun h => absurd rfl h⟩

/-- Logarithms of numbers between 1/4 and 1. -/
theorem log_quarter {x : ℝ} (h1 : 1 / 4 ≤ x) (h2 : x ≤ 1) : |Real.log x| ≤ 3 - Real.log 2 := by
  have h3 : Real.log 2 ≤ 1 := by have := Real.log_le_sub_one_of_pos (show (0 : ℝ) < 2 by norm_num); linarith
  have h4 : Real.log (1 / 4) = -(2 * Real.log 2) := by
    rw [show (1 / 4 : ℝ) = (2 ^ 2)⁻¹ by norm_num, Real.log_inv, Real.log_pow]
    norm_num
  have h5 := Real.log_le_log (by norm_num) h1
  have h6 := Real.log_nonpos (by linarith) h2
  rw [abs_of_nonpos h6]
  linarith

theorem stores_near {L x y : ℝ} (hx : 0 < x) (hy : 0 < y) (h1 : x / y - 1 ≤ 1 / 2 ^ 19) (h2 : y / x - 1 ≤ 1 / 2 ^ 19) (h : |Real.log y| ≤ L) : Stores Fixed.get L (1 / 2 ^ 19) ⟨.fin x⟩ (.fin y) := by
  refine ⟨x, y, rfl, rfl, hx.le, hy.le, ⟨fun h => absurd h hx.ne', fun h => absurd h hy.ne'⟩, fun _ => ⟨h, ?_⟩⟩
  have h3 := Real.log_le_sub_one_of_pos (div_pos hx hy)
  have h4 := Real.log_le_sub_one_of_pos (div_pos hy hx)
  rw [Real.log_div hx.ne' hy.ne'] at h3
  rw [Real.log_div hy.ne' hx.ne'] at h4
  rw [abs_le]
  constructor <;> linarith

theorem fixedNet_ch (n : Fin 7) : mixNet.ch n = fixedNet.ch n := by
  fin_cases n <;> rfl

theorem fixedNet_stores (n : Fin 7) : StoresNode Fixed.get 2 3 (1 / 2 ^ 19) (StoresLeaf Fixed.get (VarSet.single 1 0) 3 (1 / 2 ^ 19)) (fixedNet.kind n) (mixNet.kind n) := by
  have hl2 : 0 ≤ Real.log 2 := Real.log_nonneg (by norm_num)
  have up : ∀ {x : ℝ}, |Real.log x| ≤ 3 - Real.log 2 → |Real.log x| ≤ 3 := fun h => by linarith
  have hv : ∀ {v u : Int} {m : ℕ}, 2 ≤ m → VarSet.single 1 0 v = some u → 0 ≤ u ∧ u < m := by
    intro v u m hm h
    unfold VarSet.single at h
    split at h
    · cases h
      omega
    · cases h
  fin_cases n
  · refine ⟨rfl, by simp, le_rfl, le_rfl, .cons ?_ (.cons ?_ .nil)⟩
    · exact stores_same (by norm_num) (by positivity) (by norm_num; exact log_quarter (by norm_num) (by norm_num))
    · exact stores_same (by norm_num) (by positivity) (by norm_num; exact log_quarter (by norm_num) (by norm_num))
  · rfl
  · rfl
  · refine ⟨rfl, .cons ?_ (.cons ?_ .nil), fun u h => hv le_rfl h⟩
    · exact stores_same (by norm_num) (by positivity) (up (log_quarter (by norm_num) (by norm_num)))
    · exact stores_same (by norm_num) (by positivity) (up (log_quarter (by norm_num) (by norm_num)))
  · refine ⟨rfl, .cons ?_ (.cons ?_ .nil), fun u h => hv le_rfl h⟩
    · exact stores_near (by norm_num) (by norm_num) (by norm_num) (by norm_num) (up (log_quarter (by norm_num) (by norm_num)))
    · exact stores_near (by norm_num) (by norm_num) (by norm_num) (by norm_num) (up (log_quarter (by norm_num) (by norm_num)))
  · exact ⟨rfl, rfl⟩
  · refine ⟨rfl, .cons ?_ (.cons ?_ .nil), fun u h => hv le_rfl h⟩
    · exact stores_same (by norm_num) (by positivity) (by simp)
    · exact stores_zero

theorem mixNet_scopeSize : scopeSize mixNet 0 = 2 := by
  have h : {v | InScope mixNet 0 v} = {0, 1} := by
    ext v
    have h0 : mixNet.ch 0 = [1, 2] := rfl
    rw [Set.mem_ofPred_eq, InScope.of_node (by intro l h; cases h)]
    simp [h0, mixNet_scope1, mixNet_scope2]
  rw [scopeSize, h, Set.ncard_pair (by norm_num)]

/-- The hypotheses of `C99_standard` hold for the stored network and partial evidence: the error is at most 21·10·2⁻¹⁹, about 0.0004. -/
example : StdFloat Fixed.get 0 (1 / 2 ^ 21) 1000 ∧ (∀ u, ∀ c ∈ mixNet.ch u, (![2, 1, 1, 0, 0, 0, 0] : Fin 7 → ℕ) c < (![2, 1, 1, 0, 0, 0, 0] : Fin 7 → ℕ) u) ∧ IsComplete mixNet 0 ∧ IsDecomposable mixNet 0 ∧
    NonnegWeights mixNet 0 ∧ DiscreteLeaves mixNet 0 (fun _ => {0, 1}) ∧ InDomain mixNet 0 (fun v => ((fun _ => {0, 1} : Int → Finset Int) v : Set Int)) (VarSet.single 1 0) ∧
    (∀ n, Reach mixNet.ch 0 n → ∃ v, InScope mixNet n v) ∧ (∀ n, mixNet.ch n = fixedNet.ch n) ∧ Real.log (2 : ℕ) ≤ 3 ∧
    (∀ n, Reach mixNet.ch 0 n → StoresNode Fixed.get 2 3 (1 / 2 ^ 19) (StoresLeaf Fixed.get (VarSet.single 1 0) 3 (1 / 2 ^ 19)) (fixedNet.kind n) (mixNet.kind n)) ∧
    10 = scopeSize mixNet 0 * (2 * (![2, 1, 1, 0, 0, 0, 0] : Fin 7 → ℕ) 0 + 1) ∧ (39 : ℝ) = 3 * ((10 : ℕ) + 1) + (2 : ℕ) + 4 ∧ 2 * 0 * (39 : ℝ) + 1 / 2 ^ 21 ≤ 1 / 2 ^ 19 ∧
    (8 * ((2 : ℕ) : ℝ) + 5) * (1 / 2 ^ 19) * ((10 : ℕ) : ℝ) ≤ 1 := by
  have hsc : ∀ n, Reach mixNet.ch 0 n → ∃ v, InScope mixNet n v := by
    intro n _
    have h1 := (mixNet_scope1 0).2 (Or.inl rfl)
    have h2 := (mixNet_scope2 0).2 (Or.inl rfl)
    fin_cases n
    · exact ⟨0, InScope.child (c := 1) (by simp [mixNet, Net.ch]) h1⟩
    · exact ⟨0, h1⟩
    · exact ⟨0, h2⟩
    all_goals exact ⟨_, (InScope.of_leaf rfl).2 rfl⟩
  refine ⟨Fixed.std _, fun u v h => by have := mixNet_rank u v h; omega, mixNet_complete, mixNet_decomposable, mixNet_weights.nonneg, mixNet_discrete, ?_, hsc, fixedNet_ch, ?_,
    fun n _ => fixedNet_stores n, by rw [mixNet_scopeSize]; rfl, by norm_num, by norm_num, by norm_num⟩
  · intro v _ x hx
    unfold VarSet.single at hx
    split at hx
    · cases hx
      simp
    · cases hx
  · have := Real.log_le_sub_one_of_pos (show (0 : ℝ) < (2 : ℕ) by norm_num)
    push_cast at this ⊢
    linarith

end Gospn
