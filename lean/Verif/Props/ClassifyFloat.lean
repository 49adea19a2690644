/-
C122: what ImgClassify finds with a network learned in floating point arithmetic.
-/
import Verif.Props.GensFloat
import Verif.Props.App
import Verif.Props.Shape

set_option linter.unusedSectionVars false
set_option linter.unusedSimpArgs false

namespace Gospn
open GoFloat Spec
variable {ι F : Type} [GoFloat F] {val : F → XR}

open Classical in
/-- The probability of the evidence `I`: the sum of `P` over the complete instances that agree with it. -/
noncomputable def Spec.mass (Sc : VarScope) (C : Finset VarSet) (P : VarSet → ℝ) (I : VarSet) : ℝ := ∑ J ∈ C with Agrees Sc I J, P J

/-- The class `p` of the variable `v` is, up to `τ`, the most probable one given the evidence `I`. -/
def Spec.NearlyBest (Sc : VarScope) (C : Finset VarSet) (P : VarSet → ℝ) (v n : Int) (τ : ℝ) (I : VarSet) (p : Int) : Prop :=
  0 ≤ p ∧ p < n ∧ ∀ j, 0 ≤ j → j < n → mass Sc C P (I.set v j) / mass Sc C P I ≤ mass Sc C P (I.set v p) / mass Sc C P I + τ

/-- The arithmetic of the comparison of two classes. -/
theorem nearly_best {δ ε u η z zc zj a ac aj dc dj tc tj : ℝ} (hu : 0 ≤ u) (hu2 : u ≤ 1 / 2) (hη : 0 ≤ η) (hδ : 0 ≤ δ) (hε : 0 ≤ ε) (ha : |a - z| ≤ δ) (hac : |ac - zc| ≤ δ) (haj : |aj - zj| ≤ δ) (hz : zj ≤ z)
    (hdc : |dc - (ac - a)| ≤ ε) (hdj : |dj - (aj - a)| ≤ ε) (htc : |tc - Real.exp dc| ≤ u * Real.exp dc + η) (htj : |tj - Real.exp dj| ≤ u * Real.exp dj + η) (h : tj ≤ tc) :
    Real.exp (zj - z) ≤ Real.exp (zc - z) + (4 * δ + 2 * ε + 2 * u + 2 * η) := by
  rw [abs_le] at ha hac haj hdc hdj htc htj
  obtain ⟨κ, hκ⟩ : ∃ κ, κ = 2 * δ + ε := ⟨_, rfl⟩
  have hκ0 : 0 ≤ κ := by rw [hκ]; positivity
  obtain ⟨qj, hqj⟩ : ∃ q, q = Real.exp (zj - z) := ⟨_, rfl⟩
  obtain ⟨qc, hqc⟩ : ∃ q, q = Real.exp (zc - z) := ⟨_, rfl⟩
  rw [← hqj, ← hqc]
  have hq1 : qj ≤ 1 := hqj ▸ Real.exp_le_one_iff.2 (by linarith)
  have hq0 : 0 < qj := hqj ▸ Real.exp_pos _
  have hc0 : 0 < qc := hqc ▸ Real.exp_pos _
  have h1 : Real.exp dc ≤ qc * Real.exp κ := by rw [hqc, ← Real.exp_add]; exact Real.exp_le_exp.2 (by linarith)
  have h2 : qj * Real.exp (-κ) ≤ Real.exp dj := by rw [hqj, ← Real.exp_add]; exact Real.exp_le_exp.2 (by linarith)
  have h3 : (1 - u) * (qj * Real.exp (-κ)) - η ≤ (1 + u) * (qc * Real.exp κ) + η := by
    have e1 := mul_le_mul_of_nonneg_left h1 (by linarith : 0 ≤ 1 + u)
    have e2 := mul_le_mul_of_nonneg_left h2 (by linarith : 0 ≤ 1 - u)
    linarith
  have hk : Real.exp κ * Real.exp (-κ) = 1 := by rw [← Real.exp_add]; simp
  have hk1 : Real.exp (-κ) ≤ 1 := Real.exp_le_one_iff.2 (by linarith)
  have hk0 : 0 < Real.exp (-κ) := Real.exp_pos _
  have hk2 : 1 - 2 * κ ≤ Real.exp (-κ) * Real.exp (-κ) := by
    rw [← Real.exp_add]
    have := Real.add_one_le_exp (-κ + -κ)
    linarith
  have h4 : (1 - u) * (qj * (Real.exp (-κ) * Real.exp (-κ))) ≤ (1 + u) * qc + 2 * η := by
    have := mul_le_mul_of_nonneg_right h3 hk0.le
    have e : ((1 + u) * (qc * Real.exp κ) + η) * Real.exp (-κ) = (1 + u) * qc * (Real.exp κ * Real.exp (-κ)) + η * Real.exp (-κ) := by ring
    rw [e, hk] at this
    have hb := mul_le_mul_of_nonneg_left hk1 hη
    linarith
  by_contra hlt
  rw [not_le] at hlt
  have hcj : qc ≤ qj := by linarith
  have h5 : (1 - u) * (qj * (1 - 2 * κ)) ≤ (1 + u) * qc + 2 * η := by
    refine le_trans ?_ h4
    exact mul_le_mul_of_nonneg_left (mul_le_mul_of_nonneg_left hk2 hq0.le) (by linarith)
  have hqκ : qj * κ ≤ κ := mul_le_of_le_one_left hκ0 hq1
  have hqu : qj * u ≤ u := mul_le_of_le_one_left hu hq1
  have hcu : qc * u ≤ u := mul_le_of_le_one_left hu (hcj.trans hq1)
  have hquκ : 0 ≤ u * (qj * κ) := by positivity
  linarith

/-- The comparison of the classes ends with a score that no other score exceeds. -/
theorem imgClass_max {u η Ω : ℝ} (hF : StdFloat val u η Ω) (h1 : val (ofInt (-1)) = .fin (-1)) (vals : Nat → F) (pz : F) (t : Nat → ℝ) (n : Nat) (hn : 0 < n)
    (ht : ∀ j < n, val (GoFloat.exp (sub (vals j) pz)) = .fin (t j) ∧ -1 < t j) :
    ∃ p < n, imgClass vals pz (List.range n) (ofInt (-1), -1) = (GoFloat.exp (sub (vals p) pz), (p : Int)) ∧ ∀ j < n, t j ≤ t p := by
  induction n with
  | zero => omega
  | succ n ih =>
    have hfold : imgClass vals pz (List.range (n + 1)) (ofInt (-1), -1) =
        (fun acc : F × Int => if lt acc.1 (GoFloat.exp (sub (vals n) pz)) then (GoFloat.exp (sub (vals n) pz), (n : Int)) else acc) (imgClass vals pz (List.range n) (ofInt (-1), -1)) := by
      unfold imgClass
      rw [List.range_succ, List.foldl_append]
      rfl
    rw [hfold]
    beta_reduce
    obtain ⟨hn1, hn2⟩ := ht n (by omega)
    by_cases hn0 : n = 0
    · subst hn0
      refine ⟨0, by omega, ?_, fun j hj => by rw [show j = 0 by omega]⟩
      have e : imgClass vals pz (List.range 0) (ofInt (-1), -1) = (ofInt (-1), -1) := rfl
      rw [e, hF.lt, h1, hn1]
      simp [XR.lt, hn2]
    · obtain ⟨p, hp, e, hb⟩ := ih (by omega) fun j hj => ht j (by omega)
      rw [e, hF.lt, (ht p (by omega)).1, hn1]
      by_cases hlt : t p < t n
      · refine ⟨n, by omega, by simp [XR.lt, hlt], fun j hj => ?_⟩
        by_cases ej : j = n
        · rw [ej]
        · exact (hb j (by omega)).trans hlt.le
      · refine ⟨p, by omega, by simp [XR.lt, hlt], fun j hj => ?_⟩
        by_cases ej : j = n
        · rw [ej]; exact not_lt.1 hlt
        · exact hb j (by omega)

/-- The scores of the classes, and what they say about the probabilities. -/
theorem score_bounds {u η Ω B ε δ Λ : ℝ} (hF : StdFloat val u η Ω) (hu : 0 ≤ u) (hη : 0 ≤ η) (hδ : 0 ≤ δ) (hδ1 : δ ≤ 1) (hε : 2 * u * B + η ≤ ε) (hε1 : ε ≤ 1 / 13) (hB : 5 ≤ B) (hΩ : 2 * B ≤ Ω) (hΛ : Λ + 1 ≤ B)
    {px pz : F} {aj a zj z : ℝ} (hx : val px = .fin aj) (hz : val pz = .fin a) (haj : |aj - zj| ≤ δ) (ha : |a - z| ≤ δ) (hzj : |zj| ≤ Λ) (hzz : |z| ≤ Λ) (hle : zj ≤ z) :
    ∃ d t : ℝ, val (GoFloat.exp (sub px pz)) = .fin t ∧ -1 < t ∧ |d - (aj - a)| ≤ ε ∧ |t - Real.exp d| ≤ u * Real.exp d + η := by
  have hε0 : 0 ≤ ε := by nlinarith
  have hdiff : |aj - a| ≤ 2 * B := by
    rw [abs_le] at *
    constructor <;> linarith
  obtain ⟨d, hd, hd1⟩ := hF.sub px pz aj a hx hz (hdiff.trans hΩ)
  have hd2 : |d - (aj - a)| ≤ ε := by
    refine hd1.trans (le_trans ?_ hε)
    have := mul_le_mul_of_nonneg_left hdiff hu
    linarith
  have hdle : d ≤ 2 + 1 / 13 := by
    rw [abs_le] at *
    linarith
  have he : Real.exp d ≤ Ω := by
    have e1 : Real.exp d ≤ Real.exp (2 + 1 / 13) := Real.exp_le_exp.2 hdle
    have e2 : Real.exp (2 + 1 / 13) = Real.exp 1 * Real.exp 1 * Real.exp (1 / 13) := by rw [← Real.exp_add, ← Real.exp_add]; norm_num
    have e3 : Real.exp 1 < 2.7182818286 := Real.exp_one_lt_d9
    have e4 : Real.exp (1 / 13) ≤ 13 / 12 := by
      have h := Real.add_one_le_exp (-(1 / 13 : ℝ))
      rw [Real.exp_neg] at h
      have hp := Real.exp_pos (1 / 13 : ℝ)
      rw [le_inv_comm₀ (by norm_num) hp] at h
      refine h.trans ?_
      norm_num
    have e5 := Real.exp_pos (1 : ℝ)
    have e6 : Real.exp 1 * Real.exp 1 ≤ 7.5 := by nlinarith
    have e7 : Real.exp 1 * Real.exp 1 * Real.exp (1 / 13) ≤ 7.5 * (13 / 12) := mul_le_mul e6 e4 (Real.exp_pos _).le (by norm_num)
    rw [e2] at e1
    norm_num at e7
    linarith
  obtain ⟨t, ht, ht1⟩ := hF.exp _ d hd he
  refine ⟨d, t, ht, ?_, hd2, ht1⟩
  have hu1 : u ≤ 1 / 2 := by nlinarith
  have hηε : η ≤ 1 / 13 := by nlinarith
  have hp := Real.exp_pos d
  rw [abs_le] at ht1
  nlinarith [mul_nonneg (by linarith : (0 : ℝ) ≤ 1 - u) hp.le]

theorem mass_eq {Sc : VarScope} {C A : Finset VarSet} {P : VarSet → ℝ} {I : VarSet} (hA : ∀ J, J ∈ A ↔ J ∈ C ∧ Agrees Sc I J) : mass Sc C P I = ∑ J ∈ A, P J := by
  classical
  unfold mass
  refine Finset.sum_congr ?_ fun _ _ => rfl
  ext J
  rw [Finset.mem_filter, hA]

/-- Some complete instance agrees with evidence in the categories. -/
theorem mass_pos {Sc : VarScope} {cats : Int → Int} {C : Finset VarSet} {P : VarSet → ℝ} (hC : ∀ J, J ∈ C ↔ FullInstance Sc cats J) (hP : ∀ J ∈ C, 0 < P J) (hok : ScopeOk cats Sc) {I : VarSet}
    (hI : ∀ v x, (Sc v).isSome → I v = some x → 0 ≤ x ∧ x < cats v) : 0 < mass Sc C P I := by
  classical
  have hmem : (fun v => if (Sc v).isSome then some ((I v).getD 0) else none : VarSet) ∈ C := by
    rw [hC]
    intro v
    by_cases hv : (Sc v).isSome
    · simp only [hv, if_true]
      refine ⟨_, rfl, ?_⟩
      cases h : I v with
      | none =>
        obtain ⟨w, hw⟩ := Option.isSome_iff_exists.1 hv
        exact ⟨le_rfl, (hok v w hw).2.2⟩
      | some x => exact hI v x hv h
    · simp [hv]
  unfold mass
  refine Finset.sum_pos (fun J hJ => hP J (Finset.mem_filter.1 hJ).1) ⟨_, Finset.mem_filter.2 ⟨hmem, ?_⟩⟩
  intro v x hv hx
  simp [hv, hx]

theorem mass_set_le {Sc : VarScope} {C : Finset VarSet} {P : VarSet → ℝ} (hP : ∀ J ∈ C, 0 < P J) {I : VarSet} {v : Int} (hI : I v = none) (j : Int) : mass Sc C P (I.set v j) ≤ mass Sc C P I := by
  classical
  unfold mass
  refine Finset.sum_le_sum_of_subset_of_nonneg ?_ fun J hJ _ => (hP J (Finset.mem_filter.1 hJ).1).le
  intro J hJ
  rw [Finset.mem_filter] at hJ ⊢
  refine ⟨hJ.1, fun w x hw hx => hJ.2 w x hw ?_⟩
  have : w ≠ v := by rintro rfl; rw [hI] at hx; cases hx
  simp [VarSet.set, this, hx]

variable [DecidableEq ι] [Fintype ι]

/-- A learned network of two or more variables has a root with children. -/
theorem learned_root {N : Net ι F} {g k : Int} (hg : g ≤ 0) {eps : F} {mp : Int} {Sc : VarScope} {D : List VarSet} {S : ι} (h : Learned N g k eps mp Sc D S) (cats : Int → Int) (hok : ScopeOk cats Sc)
    (keys : List Int) (hkeys : Sc.Order keys) (h2 : 2 ≤ keys.length) : N.ch S ≠ [] := by
  obtain ⟨hsc, hgood, _⟩ := learned_float hg h D.length cats hok le_rfl
  intro hS
  have hch : (exactNet N D.length cats).ch S = [] := by rw [exactNet_ch]; exact hS
  have hall : ∀ v ∈ keys, ∃ l, (exactNet N D.length cats).kind S = .leaf l ∧ leafVar l = v := by
    intro v hv
    obtain ⟨i, l, hi, hk, hl⟩ := (hsc v).2 ((hkeys.2 v).1 hv)
    rcases Relation.ReflTransGen.cases_head hi with rfl | ⟨c, hc, _⟩
    · exact ⟨l, hk, hl⟩
    · rw [hch] at hc
      cases hc
  match keys, h2, hkeys.1, hall with
  | a :: b :: ks, _, hnd, hall =>
    obtain ⟨l, e1, e2⟩ := hall a (by simp)
    obtain ⟨l', e3, e4⟩ := hall b (by simp)
    rw [e1] at e3
    cases e3
    rw [e2] at e4
    simp [e4] at hnd

/-- C122. ImgClassify with a network learned in floating point arithmetic. Under the conditions of C120, with two or more variables of which `v` is the class and a network that is a tree, it gives each test instance a
class whose probability given the instance is at most `8δ` below the greatest, where `δ = (8K + 5)·ε·T` is the error of `Value`. It returns the number of instances whose label is that class and the number of
instances. -/
theorem C122_classify {N : Net ι F} {g k : Int} (hg : g ≤ 0) {eps : F} {mp : Int} {Sc : VarScope} {D : List VarSet} {S : ι} (h : Learned N g k eps mp Sc D S) (cats : Int → Int) (hok : ScopeOk cats Sc)
    (keys : List Int) (hkeys : Sc.Order keys) (hne : 2 ≤ keys.length) (rank : ι → ℕ) (hrank : ∀ u, ∀ c ∈ N.ch u, rank c < rank u) (htree : TreeBelow N.ch S) (hsum : ∀ n cs w, N.kind n = .sum cs w → cs ≠ [])
    (K m Z T : ℕ) (u η Ω L B ε : ℝ) (hF : StdFloat val u η Ω) (hZ : IntFloat val u Z)
    (hu : 0 ≤ u) (hu2 : u ≤ 1 / 2) (hη : 0 ≤ η) (hK1 : 1 ≤ K) (hK : ∀ n, Reach N.ch S n → ∀ cs w, N.kind n = .sum cs w → cs.length ≤ K)
    (hm : ∀ v ∈ keys, D.length + cats v ≤ m) (hmZ : m ≤ Z) (hT : T = keys.length * (2 * rank S + 1)) (hL : L = Real.log m + Real.log K) (hB : B = L * (T + 1) + K + 4)
    (hε : 2 * u * B + η ≤ ε) (hΩ : 2 * B ≤ Ω) (hsmall : (8 * K + 5) * ε * T ≤ 1) :
    ∃ (C : Finset VarSet) (P : VarSet → ℝ), (∀ J, J ∈ C ↔ FullInstance Sc cats J) ∧ (∀ J ∈ C, 0 < P J) ∧ ∑ J ∈ C, P J = 1 ∧
      ∀ v ∈ keys, ∀ (test : List VarSet) (lbls : List Int), lbls.length = test.length → (∀ l ∈ lbls, 0 ≤ l ∧ l < cats v) →
        (∀ I ∈ test, I v = none ∧ ∀ w x, (Sc w).isSome → I w = some x → 0 ≤ x ∧ x < cats w) →
        ∃ ps : List Int, List.Forall₂ (NearlyBest Sc C P v (cats v) (8 * ((8 * K + 5) * ε * T))) test ps ∧
          imgClassify N S v (cats v) test lbls = some ((List.zip ps lbls).countP (fun x => x.1 = x.2), test.length, test) := by
  have hne' : keys ≠ [] := by rintro rfl; simp at hne
  obtain ⟨C, P, hC, hP, hsum1, hval⟩ := C120_value hg h cats hok keys hkeys hne' rank hrank K m Z T u η Ω L B ε hF hZ hu hu2 hη hK1 hK hm hmZ hT hL hB hε hΩ hsmall
  refine ⟨C, P, hC, hP, hsum1, fun v hv test lbls hlen hlab htest => ?_⟩
  have hac : Acyclic N.ch := ⟨rank, fun u c hc => hrank u c hc⟩
  have hso := (C94_tree N S hac htree).2
  have hS := learned_root hg h cats hok keys hkeys hne
  have hvs := (hkeys.2 v).1 hv
  obtain ⟨w0, hw0⟩ := Option.isSome_iff_exists.1 hvs
  have hcv := (hok v w0 hw0).2.2
  -- numbers
  have hKr : (1 : ℝ) ≤ K := by exact_mod_cast hK1
  have hT1 : (1 : ℝ) ≤ T := by
    have : 1 ≤ T := by rw [hT]; nlinarith
    exact_mod_cast this
  have hL0 : 0 ≤ L := by rw [hL]; linarith [Real.log_natCast_nonneg m, Real.log_natCast_nonneg K]
  have hLT : 0 ≤ L * T := mul_nonneg hL0 (by linarith)
  have hB5 : L * T + 1 ≤ B := by rw [hB]; nlinarith
  have hB5' : 5 ≤ B := by rw [hB]; nlinarith
  have huB : 0 ≤ u * B := mul_nonneg hu (by linarith)
  have hε0 : 0 ≤ ε := by nlinarith
  have hεT : ε ≤ ε * T := by nlinarith
  have hδε : 13 * ε ≤ (8 * K + 5) * ε * T := by
    have e : (8 * (K : ℝ) + 5) * ε * T = (8 * K + 5) * (ε * T) := by ring
    rw [e]
    nlinarith [mul_nonneg (by linarith : (0 : ℝ) ≤ K - 1) (hε0.trans hεT)]
  set δ := (8 * (K : ℝ) + 5) * ε * T with hδ
  have hδ0 : 0 ≤ δ := by linarith
  have hε13 : ε ≤ 1 / 13 := by linarith
  have hm1 : (1 : ℕ) ≤ Z := by
    have := hm v hv
    omega
  have hneg : val (ofInt (-1)) = .fin (-1) := by
    rw [hZ.ofInt (-1) (by simp; omega)]
    simp
  -- what Value returns
  have hvalue : ∀ I, (∀ w x, (Sc w).isSome → I w = some x → 0 ≤ x ∧ x < cats w) →
      ∃ (f : F) (a z : ℝ), N.value I S = some f ∧ val f = .fin a ∧ |a - z| ≤ δ ∧ |z| ≤ L * T ∧ Real.exp z = mass Sc C P I := by
    intro I hI
    obtain ⟨A, f, x, hA, e1, e2, e3, e4, e5⟩ := hval I hI
    have hpos := mass_pos hC hP hok hI
    rw [mass_eq hA] at hpos ⊢
    rcases IsLogProb.cases e3 with rfl | ⟨z, rfl⟩
    · simp only [unlog_ninf] at e4
      rw [← e4] at hpos
      exact absurd hpos (lt_irrefl _)
    · rcases e2.cases with ⟨_, e⟩ | ⟨a, b, e6, e7, e8⟩
      · cases e
      · cases e7
        exact ⟨f, a, z, e1, e6, e8, e5, e4⟩
  have hrow : ∀ (I : VarSet), I v = none → (∀ w x, (Sc w).isSome → I w = some x → 0 ≤ x ∧ x < cats w) → ∀ (tk : Int) (st : Storer ι F), GoodAt tk st →
      ∃ p st', imgClassifyRow N S v (cats v) tk st I = some (p, I, st') ∧ GoodAt tk st' ∧ NearlyBest Sc C P v (cats v) (8 * δ) I p := by
    intro I hIv hI tk st hgood
    obtain ⟨pz, a, z, hpz, ha, haz, hzb, hez⟩ := hvalue I hI
    have hIj : ∀ j : Nat, (j : Int) < cats v → ∀ w x, (Sc w).isSome → (I.set v (j : Int)) w = some x → 0 ≤ x ∧ x < cats w := by
      intro j hj w x hw hx
      by_cases e : w = v
      · subst e
        simp only [VarSet.set, if_true, Option.some.injEq] at hx
        omega
      · simp only [VarSet.set, e, if_false] at hx
        exact hI w x hw hx
    have hj : ∀ j : Nat, ∃ (f : F) (aj zj d t : ℝ), (j : Int) < cats v → N.value (I.set v (j : Int)) S = some f ∧ val f = .fin aj ∧ |aj - zj| ≤ δ ∧ |zj| ≤ L * T ∧ zj ≤ z ∧
        Real.exp zj = mass Sc C P (I.set v (j : Int)) ∧ val (GoFloat.exp (sub f pz)) = .fin t ∧ -1 < t ∧ |d - (aj - a)| ≤ ε ∧ |t - Real.exp d| ≤ u * Real.exp d + η := by
      intro j
      by_cases hj : (j : Int) < cats v
      · obtain ⟨f, aj, zj, e1, e2, e3, e4, e5⟩ := hvalue (I.set v (j : Int)) (hIj j hj)
        have hle : zj ≤ z := by
          rw [← Real.exp_le_exp, e5, hez]
          exact mass_set_le hP hIv _
        obtain ⟨d, t, e6, e7, e8, e9⟩ := score_bounds hF hu hη hδ0 hsmall hε hε13 hB5' hΩ hB5 e2 ha e3 haz e4 hzb hle
        exact ⟨f, aj, zj, d, t, fun _ => ⟨e1, e2, e3, e4, hle, e5, e6, e7, e8, e9⟩⟩
      · exact ⟨ofInt 0, 0, 0, 0, 0, fun h => absurd h hj⟩
    choose f aj zj d t hj using hj
    have hdelI : I.del v = I := by
      funext k
      by_cases hk : k = v
      · subst hk; simp [VarSet.del, hIv]
      · simp [VarSet.del, hk]
    have hrange : ∀ j ∈ List.range (cats v).toNat, (j : Int) < cats v := by
      intro j hj
      rw [List.mem_range] at hj
      omega
    obtain ⟨st1, g1, g2⟩ := imgValue_good hac hso hS hsum hgood hpz
    obtain ⟨st2, inst2, g3, g4, g5⟩ := imgClass_loop hac hso hS hsum (v := v) (tk := tk) (pz := pz) (J := I) (val := f) (List.range (cats v).toNat) ⟨st1, I, ofInt (-1), -1⟩ g2 hdelI
      fun j hj' => (hj j (hrange j hj')).1
    obtain ⟨p, hp, he, hb⟩ := imgClass_max hF hneg f pz t (cats v).toNat (by omega) fun j hj' => ⟨(hj j (by omega)).2.2.2.2.2.2.1, (hj j (by omega)).2.2.2.2.2.2.2.1⟩
    refine ⟨(p : Int), st2, ?_, g3, by omega, by omega, ?_⟩
    · unfold imgClassifyRow
      rw [if_neg (by omega), g1, Option.bind_some, g5, Option.map_some]
      simp only [g4, he]
    · intro j hj0 hj1
      obtain ⟨i, rfl⟩ := Int.eq_ofNat_of_zero_le hj0
      obtain ⟨_, _, c3, _, c5, c6, _, _, c9, c10⟩ := hj i hj1
      obtain ⟨_, _, d3, _, _, d6, _, _, d9, d10⟩ := hj p (by omega)
      have hbest := nearly_best hu hu2 hη hδ0 hε0 haz d3 c3 c5 d9 c9 d10 c10 (hb i (by omega))
      rw [Real.exp_sub, Real.exp_sub, c6, d6, hez] at hbest
      have hη2 : 2 * u + 2 * η ≤ 2 * ε := by nlinarith
      show mass Sc C P (I.set v (i : Int)) / _ ≤ mass Sc C P (I.set v (p : Int)) / _ + _
      linarith
  have key : ∀ (test : List VarSet) (lbls : List Int) (st : Storer ι F) (c : Nat) (done : List VarSet) (tk : Int), lbls.length = test.length → GoodAt tk st →
      (∀ I ∈ test, I v = none ∧ ∀ w x, (Sc w).isSome → I w = some x → 0 ≤ x ∧ x < cats w) →
      ∃ (ps : List Int) (st' : Storer ι F), List.Forall₂ (NearlyBest Sc C P v (cats v) (8 * δ)) test ps ∧
        (test.zip lbls).foldlM (imgClassifyStep N S v (cats v) tk) (c, done, st) = some (c + (List.zip ps lbls).countP (fun x => x.1 = x.2), done ++ test, st') := by
    intro test
    induction test with
    | nil => intro lbls st c done tk _ _ _; exact ⟨[], st, .nil, by simp⟩
    | cons I test ih =>
      intro lbls st c done tk hlen hg ht
      cases lbls with
      | nil => simp at hlen
      | cons l lbls =>
        obtain ⟨p, st1, h1, h2, h3⟩ := hrow I (ht I (by simp)).1 (ht I (by simp)).2 tk st hg
        obtain ⟨ps, st2, k1, k2⟩ := ih lbls st1 (if p = l then c + 1 else c) (done ++ [I]) tk (by simpa using hlen) h2 fun I hI => ht I (by simp [hI])
        refine ⟨p :: ps, st2, .cons h3 k1, ?_⟩
        rw [List.zip_cons_cons, List.foldlM_cons]
        have hstep : imgClassifyStep N S v (cats v) tk (c, done, st) (I, l) = some (if p = l then c + 1 else c, done ++ [I], st1) := by
          simp [imgClassifyStep, h1]
        rw [hstep]
        show List.foldlM _ _ _ = _
        rw [k2, List.zip_cons_cons, List.countP_cons]
        congr 2
        · by_cases e : p = l
          · simp [e]; omega
          · simp [e]
        · simp
  obtain ⟨ps, st', h1, h2⟩ := key test lbls _ 0 [] _ hlen (goodAt_new (ι := ι) (F := F)) htest
  refine ⟨ps, h1, ?_⟩
  unfold imgClassify
  simp only [h2, Option.bind_some]
  rw [if_neg (by omega), if_pos (by simpa using hlab)]
  simp

/-- C122, in other words: a class that leads by more than `τ` is the one found. -/
theorem C122_leader {Sc : VarScope} {C : Finset VarSet} {P : VarSet → ℝ} {v n : Int} {τ : ℝ} {I : VarSet} {p : Int} (h : NearlyBest Sc C P v n τ I p) {c : Int} (hc : 0 ≤ c) (hc' : c < n)
    (hlead : ∀ j, 0 ≤ j → j < n → j ≠ c → mass Sc C P (I.set v j) / mass Sc C P I + τ < mass Sc C P (I.set v c) / mass Sc C P I) : p = c := by
  by_contra hp
  have h1 := h.2.2 c hc hc'
  have h2 := hlead p h.1 h.2.1 hp
  linarith

namespace GensExample

/-- The conditions of C122 hold of the learned example, in fixed-point arithmetic; the instance to be classified is that the second variable is 1. -/
example : ∃ N : Net (Fin 7) Fixed, ∃ L B ε : ℝ, Learned N 0 2 ⟨.fin 0⟩ 1 scope [d0, d1] 0 ∧ ScopeOk (fun _ => 2) scope ∧ scope.Order [0, 1] ∧ 2 ≤ ([0, 1] : List Int).length ∧
    (∀ u, ∀ c ∈ N.ch u, height c < height u) ∧ TreeBelow N.ch 0 ∧ (∀ n cs w, N.kind n = .sum cs w → cs ≠ []) ∧
    StdFloat Fixed.get (1 / 2 ^ 17) (1 / 2 ^ 21) 100 ∧ IntFloat Fixed.get (1 / 2 ^ 17) 4 ∧ (∀ n, Reach N.ch 0 n → ∀ cs w, N.kind n = .sum cs w → cs.length ≤ 2) ∧
    (∀ v ∈ ([0, 1] : List Int), (([d0, d1] : List VarSet).length : Int) + (fun _ => 2 : Int → Int) v ≤ ((4 : ℕ) : Int)) ∧ 10 = ([0, 1] : List Int).length * (2 * height 0 + 1) ∧
    L = Real.log (4 : ℕ) + Real.log (2 : ℕ) ∧ B = L * ((10 : ℕ) + 1) + (2 : ℕ) + 4 ∧ 2 * (1 / 2 ^ 17) * B + 1 / 2 ^ 21 ≤ ε ∧ 2 * B ≤ 100 ∧ (8 * (2 : ℕ) + 5) * ε * (10 : ℕ) ≤ 1 ∧
    (∀ I ∈ [VarSet.empty.set 1 1], I 0 = none ∧ ∀ w x, (scope w).isSome → I w = some x → 0 ≤ x ∧ x < (fun _ => 2 : Int → Int) w) := by
  obtain ⟨N, h1, h2, h3, h4, h5⟩ := learnedOf fixed_toInt ⟨.fin 0⟩ 1
  obtain ⟨_, _, _, hok, _⟩ := learned (.fin 0) 1
  have e4 : Real.log (4 : ℕ) = 2 * Real.log 2 := by
    rw [show ((4 : ℕ) : ℝ) = 2 ^ 2 by norm_num, Real.log_pow]
    norm_num
  have hl := Real.log_two_lt_d9
  have hl0 : 0 < Real.log 2 := Real.log_pos (by norm_num)
  refine ⟨N, _, _, 1 / 2 ^ 11, h1, hok, scope_order, le_rfl, h2, h4, h5, fixed_std 100, fixed_int, fun n _ cs w hk => h3 n cs w hk, by intro v hv; show (2 : Int) + 2 ≤ 4; omega, rfl, rfl, rfl, ?_, ?_, ?_, ?_⟩
  · rw [e4]
    norm_num
    linarith
  · rw [e4]
    norm_num
    linarith
  · norm_num
  · intro I hI
    simp only [List.mem_cons, List.not_mem_nil, or_false] at hI
    subst hI
    refine ⟨by simp [VarSet.set, VarSet.empty], fun w x _ hx => ?_⟩
    by_cases e : w = 1
    · simp [VarSet.set, e] at hx
      subst hx
      simp
    · simp [VarSet.set, VarSet.empty, e] at hx

end GensExample

end Gospn
