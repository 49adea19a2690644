import Verif.Proofs.NormFloat
import Verif.Props.Structure
import Verif.Props.Rounding
/-!
Property C128: normalisation of weights under rounding.
-/
set_option linter.unusedSectionVars false
set_option linter.unusedSimpArgs false
namespace Gospn
open Spec
variable {ι F : Type} [DecidableEq ι] [Fintype ι] [GoFloat F] {val : F → XR}

theorem forall₂_vals {w : List F} {r : List ℝ} (h : w.map val = r.map XR.fin) (hr : ∀ x ∈ r, 0 ≤ x) : List.Forall₂ (fun x y => ∃ r, val x = .fin r ∧ 0 ≤ y ∧ NearReal 0 r y) w r := by
  induction w generalizing r with
  | nil =>
    cases r with
    | nil => exact .nil
    | cons a r => simp at h
  | cons x w ih =>
    cases r with
    | nil => simp at h
    | cons a r =>
      simp only [List.map_cons, List.cons.injEq] at h
      exact .cons ⟨a, h.1, hr a (by simp), nearReal_refl⟩ (ih h.2 fun z hz => hr z (by simp [hz]))

theorem minOrZero_nonpos (r : List ℝ) : minOrZero r ≤ 0 := by
  have key : ∀ (r : List ℝ) (m : ℝ), r.foldl min m ≤ m := by
    intro r
    induction r with
    | nil => intro m; exact le_rfl
    | cons a r ih => intro m; exact le_trans (ih _) (min_le_left _ _)
  exact key r 0

/-- C128 for `learn.Normalize` on any vector of numbers: every entry of the result is its exact share of the total, after the shift that removes negative entries, up to a factor `exp (2u(n + 3))`. -/
theorem C128_normalize (w : List F) (r : List ℝ) (u τ Ω : ℝ) (hF : DivFloat val u τ Ω) (hu : 0 ≤ u) (hu2 : u ≤ 1 / 2) (hw : w.map val = r.map XR.fin) (hs : 0 < (shiftNonneg r).sum)
    (hsmall : 2 * u * (w.length + 3 : ℕ) ≤ 1) (hΩ : 3 * (shiftNonneg r).sum ≤ Ω) (hΩ3 : 3 ≤ Ω) (hτ : ∀ x ∈ shiftNonneg r, x = 0 ∨ 3 * τ ≤ x / (shiftNonneg r).sum) :
    List.Forall₂ (fun z y => ∃ x, val z = .fin x ∧ NearReal (2 * u * (w.length + 3 : ℕ)) x (y / (shiftNonneg r).sum)) (learnNormalize w) (shiftNonneg r) := by
  have hn := shiftNonneg_nonneg r
  have hm := minZero_near hF hw
  have hlast : ∀ {w' : List F}, w'.length = w.length → List.Forall₂ (fun x y => ∃ r, val x = .fin r ∧ 0 ≤ y ∧ NearReal (2 * u) r y) w' (shiftNonneg r) →
      List.Forall₂ (fun z y => ∃ x, val z = .fin x ∧ NearReal (2 * u * (w.length + 3 : ℕ)) x (y / (shiftNonneg r).sum)) (divSum w') (shiftNonneg r) := by
    intro w' hl h
    have e : 2 * (2 * u) + 2 * u * ((w'.length + 1 : ℕ) : ℝ) = 2 * u * ((w.length + 3 : ℕ) : ℝ) := by rw [hl]; push_cast; ring
    have := divSum_near hF hu hu2 (by linarith) h hs (by rw [e]; exact hsmall) hΩ hΩ3 hτ
    rwa [e] at this
  unfold learnNormalize
  dsimp only
  rw [hF.lt, hm, hF.zero]
  by_cases h0 : minOrZero r < 0
  · have : XR.lt (.fin (minOrZero r)) (.fin 0) = true := by simpa [XR.lt] using h0
    rw [this, if_pos rfl]
    refine hlast (by simp) ?_
    have hbound : ∀ x ∈ shiftNonneg r, x ≤ Ω := fun x hx => by
      have := List.single_le_sum hn x hx
      linarith
    unfold shiftNonneg at hn hbound ⊢
    rw [List.forall₂_map_left_iff]
    have key : ∀ (w' : List F) (r' : List ℝ), w'.map val = r'.map XR.fin → (∀ x ∈ r', x ∈ r) →
        List.Forall₂ (fun a c => ∃ r0, val (GoFloat.sub a (minZero w)) = .fin r0 ∧ 0 ≤ c ∧ NearReal (2 * u) r0 c) w' (r'.map fun x => x - minOrZero r) := by
      intro w'
      induction w' with
      | nil =>
        intro r' h _
        cases r' with
        | nil => exact .nil
        | cons a r' => simp at h
      | cons x w' ih =>
        intro r' h hmem
        cases r' with
        | nil => simp at h
        | cons a r' =>
          simp only [List.map_cons, List.cons.injEq] at h
          have ha : a - minOrZero r ∈ r.map fun x => x - minOrZero r := List.mem_map_of_mem (hmem a (by simp))
          have h1 := hn _ ha
          have h2 := hbound _ ha
          obtain ⟨z, hz, hzz⟩ := hF.sub x (minZero w) a (minOrZero r) h.1 hm (by rw [abs_of_nonneg h1]; exact h2)
          rw [abs_of_nonneg h1] at hzz
          exact .cons ⟨z, hz, h1, nearReal_of_rel h1 hu hu2 hzz⟩ (ih r' h.2 fun y hy => hmem y (by simp [hy]))
    exact key w r hw fun _ h => h
  · have : XR.lt (.fin (minOrZero r)) (.fin 0) = false := by simpa [XR.lt] using h0
    rw [this, if_neg (by simp)]
    have hz : minOrZero r = 0 := le_antisymm (minOrZero_nonpos r) (not_lt.1 h0)
    have hr : shiftNonneg r = r := by simp [shiftNonneg, hz]
    refine hlast rfl ?_
    rw [hr] at hn ⊢
    refine List.Forall₂.imp ?_ (forall₂_vals hw hn)
    rintro a b ⟨x, h1, h2, h3⟩
    exact ⟨x, h1, h2, h3.mono h2 (by linarith)⟩

/-- C128 for `learn.Normalize`: the weights are not negative and add up to one up to a factor `exp (2u(n + 3))`. -/
theorem C128_total (w : List F) (r : List ℝ) (u τ Ω : ℝ) (hF : DivFloat val u τ Ω) (hu : 0 ≤ u) (hu2 : u ≤ 1 / 2) (hw : w.map val = r.map XR.fin) (hs : 0 < (shiftNonneg r).sum)
    (hsmall : 2 * u * (w.length + 3 : ℕ) ≤ 1) (hΩ : 3 * (shiftNonneg r).sum ≤ Ω) (hΩ3 : 3 ≤ Ω) (hτ : ∀ x ∈ shiftNonneg r, x = 0 ∨ 3 * τ ≤ x / (shiftNonneg r).sum) :
    ∃ q : List ℝ, (learnNormalize w).map val = q.map XR.fin ∧ q.length = w.length ∧ (∀ x ∈ q, 0 ≤ x) ∧ Real.exp (-(2 * u * (w.length + 3 : ℕ))) ≤ q.sum ∧ q.sum ≤ Real.exp (2 * u * (w.length + 3 : ℕ)) := by
  have h := C128_normalize w r u τ Ω hF hu hu2 hw hs hsmall hΩ hΩ3 hτ
  have hn := shiftNonneg_nonneg r
  obtain ⟨δ, hδ⟩ : ∃ δ, δ = 2 * u * ((w.length + 3 : ℕ) : ℝ) := ⟨_, rfl⟩
  rw [← hδ] at h ⊢
  obtain ⟨t, ht⟩ : ∃ t, t = (shiftNonneg r).sum := ⟨_, rfl⟩
  rw [← ht] at h hs
  have key : ∀ (z : List F) (y : List ℝ), List.Forall₂ (fun z y => ∃ x, val z = .fin x ∧ NearReal δ x (y / t)) z y → (∀ x ∈ y, 0 ≤ x) →
      ∃ q : List ℝ, z.map val = q.map XR.fin ∧ q.length = y.length ∧ (∀ x ∈ q, 0 ≤ x) ∧ NearReal δ q.sum (y.sum / t) := by
    intro z y hzy
    induction hzy with
    | nil => intro _; exact ⟨[], rfl, rfl, by simp, by simp [NearReal]⟩
    | cons h1 htl ih =>
      rename_i a b l l'
      intro hy
      obtain ⟨x, e1, e2⟩ := h1
      obtain ⟨q, g1, g2, g3, g4⟩ := ih fun x hx => hy x (by simp [hx])
      refine ⟨x :: q, by simp [e1, g1], by simp [g2], ?_, ?_⟩
      · intro y hy'
        rcases List.mem_cons.1 hy' with rfl | h
        · exact e2.nonneg (div_nonneg (hy b (by simp)) hs.le)
        · exact g3 y h
      · simp only [List.sum_cons, add_div]
        exact e2.add g4
  obtain ⟨q, g1, g2, g3, g4⟩ := key _ _ h hn
  rw [← ht, div_self hs.ne'] at g4
  refine ⟨q, g1, ?_, g3, by simpa using g4.1, by simpa using g4.2⟩
  have := congrArg List.length hw
  simp only [List.length_map] at this
  rw [g2, shiftNonneg, List.length_map, this]

/-- C128 for the normalisation of `NormalizeSPN` on numbers that are not negative. -/
theorem C128_spn (w : List F) (r : List ℝ) (u τ Ω : ℝ) (hF : DivFloat val u τ Ω) (hu : 0 ≤ u) (hu2 : u ≤ 1 / 2) (hw : w.map val = r.map XR.fin) (hr : ∀ x ∈ r, 0 ≤ x) (hs : 0 < r.sum)
    (hsmall : 2 * u * (w.length + 1 : ℕ) ≤ 1) (hΩ : 3 * r.sum ≤ Ω) (hΩ3 : 3 ≤ Ω) (hτ : ∀ x ∈ r, x = 0 ∨ 3 * τ ≤ x / r.sum) :
    List.Forall₂ (fun z y => ∃ x, val z = .fin x ∧ NearReal (2 * u * (w.length + 1 : ℕ)) x (y / r.sum)) (spnNorm w) r := by
  have hm := minZero_near hF hw
  have hz : minOrZero r = 0 := minOrZero_eq_zero hr
  unfold spnNorm
  dsimp only
  rw [hF.lt, hm, hF.zero, hz]
  have : XR.lt (.fin 0) (.fin 0) = false := by simp [XR.lt]
  rw [this, if_neg (by simp)]
  have := divSum_near hF hu hu2 le_rfl (forall₂_vals hw hr) hs (by simpa using hsmall) hΩ hΩ3 hτ
  simpa using this

/-- What is stored at a node and the normalised node that is meant: at a sum, as many weights as children, not negative, with a positive total that does not overflow, and shares of it that are zero or not tiny. -/
def Spec.SharesNode (val : F → XR) (K : ℕ) (L τ Ω : ℝ) (P : Leaf F → Leaf XR → Prop) : Kind ι F → Kind ι XR → Prop
  | .sum cs w, .sum ds q => cs = ds ∧ cs ≠ [] ∧ cs.length ≤ K ∧ w.length = cs.length ∧ ∃ r : List ℝ, w.map val = r.map XR.fin ∧ (∀ x ∈ r, 0 ≤ x) ∧ 0 < r.sum ∧ 3 * r.sum ≤ Ω ∧
      q = (r.map fun x => x / r.sum).map XR.fin ∧ ∀ x ∈ r, x = 0 ∨ (3 * τ ≤ x / r.sum ∧ Real.exp (-(L - Real.log K)) ≤ x / r.sum)
  | .product cs, .product ds => cs = ds
  | .leaf l, .leaf m => P l m
  | _, _ => False

theorem nearReal_stores {L δ x y : ℝ} {z : F} (hz : val z = .fin x) (h : NearReal δ x y) (h0 : y = 0 ∨ Real.exp (-L) ≤ y) (h1 : y ≤ 1) : Stores val L δ z (.fin y) := by
  rcases h0 with rfl | h0
  · have hx : x = 0 := by
      obtain ⟨a, b⟩ := h
      rw [zero_mul] at a b
      exact le_antisymm b a
    subst hx
    exact ⟨0, 0, hz, rfl, le_rfl, le_rfl, Iff.rfl, fun h => absurd rfl h⟩
  · have hy : 0 < y := lt_of_lt_of_le (Real.exp_pos _) h0
    have hx := h.pos hy
    refine ⟨x, y, hz, rfl, hx.le, hy.le, ⟨fun h => absurd h hx.ne', fun h => absurd h hy.ne'⟩, fun _ => ⟨?_, ?_⟩⟩
    · have := Real.log_le_log (Real.exp_pos _) h0
      rw [Real.log_exp] at this
      rw [abs_of_nonpos (Real.log_nonpos hy.le h1)]
      linarith
    · have e1 := Real.log_le_log (mul_pos hy (Real.exp_pos _)) h.1
      have e2 := Real.log_le_log hx h.2
      rw [Real.log_mul hy.ne' (Real.exp_pos _).ne', Real.log_exp] at e1 e2
      rw [abs_le]
      constructor <;> linarith

/-- **C128** (`NormalizeSPN`). Let a complete and decomposable network have weights that are not negative, with positive totals, in floating point arithmetic. After `NormalizeSPN`, `Value` returns, whatever the evidence, the logarithm
of its probability under the distribution `M` whose weights are the exact shares, up to `(8K + 5)·ε·T`; without evidence it is zero up to that error. -/
theorem C128_distribution (N : Net ι F) (M : Net ι XR) (S : ι) (I : VarSet) (dom : Int → Finset Int) (K T : ℕ) (L u η τ Ω B ε : ℝ) (rank : ι → ℕ) (hF : StdFloat val u η Ω) (hD : DivFloat val u τ Ω) (hu : 0 ≤ u)
    (hη : 0 ≤ η) (hrank : ∀ u, ∀ c ∈ M.ch u, rank c < rank u) (hcomp : IsComplete M S) (hdec : IsDecomposable M S) (hl : DiscreteLeaves M S dom)
    (hI : InDomain M S (fun v => (dom v : Set Int)) I) (hsc : ∀ n, Reach M.ch S n → ∃ v, InScope M n v)
    (hch : ∀ n, M.ch n = N.ch n) (hL : Real.log K ≤ L) (hK : 1 ≤ K) (hs : ∀ n, Reach M.ch S n → SharesNode val K L τ Ω (StoresLeaf val I L ε) (N.kind n) (M.kind n))
    (hT : T = scopeSize M S * (2 * rank S + 1)) (hB : B = L * (T + 1) + K + 4) (hε : 2 * u * B + η ≤ ε) (hΩ : 2 * B ≤ Ω) (hsmall : (8 * K + 5) * ε * T ≤ 1) :
    ∃ (N' : Net ι F) (v : F) (x : XR) (C : Finset VarSet) (f : VarSet → XR), N.normalizeSPN S = some N' ∧ DistWeights M S ∧ N'.value I S = some v ∧ Within ((8 * K + 5) * ε * T) (val v) x ∧
      (∀ J, J ∈ C ↔ Completion M S dom I J) ∧ (∀ J ∈ C, M.value J S = some (f J) ∧ IsLogProb (f J)) ∧ unlog x = ∑ J ∈ C, unlog (f J) ∧ ((∀ v, InScope M S v → I v = none) → x = .fin 0) := by
  have hK1 : (1 : ℝ) ≤ K := by exact_mod_cast hK
  have hL0 : 0 ≤ L := le_trans (Real.log_nonneg hK1) hL
  have hT0 : (0 : ℝ) ≤ T := Nat.cast_nonneg _
  have hLT : 0 ≤ L * T := mul_nonneg hL0 hT0
  have hBK : K + 4 ≤ B := by rw [hB]; nlinarith
  have huK : 2 * u * (K + 4) ≤ ε := by
    have := mul_le_mul_of_nonneg_left hBK (by linarith : (0 : ℝ) ≤ 2 * u)
    linarith
  have hT1 : (1 : ℝ) ≤ T := by
    have h1 : 1 ≤ scopeSize M S := (Set.ncard_pos (inScope_finite M S)).2 (hsc S Relation.ReflTransGen.refl)
    have : 1 ≤ T := by rw [hT]; nlinarith
    exact_mod_cast this
  have hε0 : 0 ≤ ε := le_trans (by positivity) huK
  have hε1 : ε ≤ 1 := by
    have h1 : ε * 1 ≤ ε * T := mul_le_mul_of_nonneg_left hT1 hε0
    have h2 : 0 ≤ ε * T := mul_nonneg hε0 hT0
    nlinarith
  have huK0 : 0 ≤ u * (K : ℝ) := mul_nonneg hu (by linarith)
  have hu2 : u ≤ 1 / 2 := by nlinarith
  have hwts : DistWeights M S := by
    intro n hn cs q hk
    have h := hs n hn
    rw [hk] at h
    cases hN : N.kind n with
    | leaf l => rw [hN] at h; exact absurd h id
    | product ds => rw [hN] at h; exact absurd h id
    | sum ds w =>
      rw [hN] at h
      obtain ⟨rfl, _, _, hlen, r, h1, h2, h3, h4, rfl, h5⟩ := h
      have hl' := congrArg List.length h1
      simp only [List.length_map] at hl'
      refine ⟨_, rfl, by simp only [List.length_map]; omega, ?_, ?_⟩
      · exact (isDist_div h2 h3).1
      · exact (isDist_div h2 h3).2
  obtain ⟨N', g1, g2, g3, g4⟩ := C26_normalize_spn N S
  have hchf : M.ch = N.ch := funext hch
  obtain ⟨v, x, C, f, k1, k2, k3, k4, k5, k6⟩ := C99_standard N' M S I dom K T L u η Ω B ε rank hF hu hη hrank hcomp hdec hwts.nonneg hl hI hsc (fun n => by rw [hchf, g4]) hL hK (by
    intro n hn
    have h := hs n hn
    have hnN : Reach N.ch S n := by rw [← hchf]; exact hn
    cases hN : N.kind n with
    | leaf l =>
      rw [g3 n (by simp [Net.type, hN]), hN]
      rw [hN] at h
      revert h
      cases M.kind n <;> exact id
    | product ds =>
      rw [g3 n (by simp [Net.type, hN]), hN]
      rw [hN] at h
      revert h
      cases M.kind n <;> exact id
    | sum cs w =>
      rw [g2 n cs w hnN hN]
      rw [hN] at h
      cases hM : M.kind n with
      | leaf l => rw [hM] at h; exact absurd h id
      | product ds => rw [hM] at h; exact absurd h id
      | sum ds q =>
      rw [hM] at h
      obtain ⟨rfl, hne, hlenK, hlen, r, h1, h2, h3, h4, rfl, h5⟩ := h
      have hwK : (w.length : ℝ) ≤ K := by rw [hlen]; exact_mod_cast hlenK
      have hδ : 2 * u * ((w.length + 1 : ℕ) : ℝ) ≤ ε := by
        push_cast
        have := mul_le_mul_of_nonneg_left hwK (by linarith : (0 : ℝ) ≤ 2 * u)
        linarith
      have hn' := C128_spn w r u τ Ω hD hu hu2 h1 h2 h3 (by linarith) h4 (by linarith) fun x hx => (h5 x hx).imp_right And.left
      have hlen' := hn'.length_eq
      have hl' := congrArg List.length h1
      simp only [List.length_map] at hl'
      refine ⟨rfl, hne, hlenK, by omega, ?_⟩
      rw [List.map_map, List.forall₂_map_right_iff]
      have key : ∀ z y, List.Forall₂ (fun z y => ∃ x, val z = .fin x ∧ NearReal (2 * u * (w.length + 1 : ℕ)) x (y / r.sum)) z y → (∀ x ∈ y, x ∈ r) →
          List.Forall₂ (fun a c => Stores val (L - Real.log K) ε a ((XR.fin ∘ fun x => x / r.sum) c)) z y := by
        intro z y hzy
        induction hzy with
        | nil => intro _; exact .nil
        | cons e1 htl ih =>
          rename_i a b l l'
          intro hmem
          obtain ⟨x, e1, e2⟩ := e1
          have hb := hmem b (by simp)
          have hb0 := h2 b hb
          refine .cons ?_ (ih fun x hx => hmem x (by simp [hx]))
          refine nearReal_stores e1 (e2.mono (div_nonneg hb0 h3.le) hδ) ?_ ?_
          · rcases h5 b hb with rfl | ⟨_, h6⟩
            · left; simp
            · exact Or.inr h6
          · rw [div_le_one h3]
            exact List.single_le_sum h2 b hb
      exact key _ _ hn' fun _ h => h) hT hB hε hΩ hsmall
  refine ⟨N', v, x, C, f, g1, hwts, k1, k2, k3, k4, k5, fun h0 => ?_⟩
  obtain ⟨x', C', f', m1, m2, m3, m4, m5, m6⟩ := C06_value_marginal M S dom I ⟨rank, hrank⟩ hcomp hdec hwts hl hI
  have hCC : C' = C := by ext J; rw [k3, m3]
  subst hCC
  have hff : ∑ J ∈ C', unlog (f J) = ∑ J ∈ C', unlog (f' J) := Finset.sum_congr rfl fun J hJ => by
    have h1 := (k4 J hJ).1
    rw [(m4 J hJ).1] at h1
    rw [Option.some.inj h1]
  rw [m6 h0, unlog_fin, Real.exp_zero] at m5
  have hx1 : unlog x = 1 := by rw [k5, hff, ← m5]
  have hxp : IsLogProb x := k2.isLogProb.2
  exact unlog_inj hxp trivial (by rw [hx1]; simp)

/-! ### An arithmetic with relative errors -/

/-- Numbers whose every computed result is too large by the factor `1 + 2⁻²⁰`. -/
structure Biased where
  get : XR

namespace Biased

/-- The error of every result. -/
noncomputable def fl : XR → Biased
  | .fin r => ⟨.fin (r * (1 + 1 / 2 ^ 20))⟩
  | x => ⟨x⟩

theorem fl_fin (r : ℝ) : ∃ z, (fl (.fin r)).get = .fin z ∧ |z - r| ≤ 1 / 2 ^ 20 * |r| := by
  refine ⟨_, rfl, ?_⟩
  rw [show r * (1 + 1 / 2 ^ 20) - r = 1 / 2 ^ 20 * r by ring, abs_mul, abs_of_pos (by positivity : (0 : ℝ) < 1 / 2 ^ 20)]

noncomputable instance : GoFloat Biased where
  ofInt n := ⟨.fin n⟩
  add a b := fl (XR.add a.get b.get)
  sub a b := fl (XR.sub a.get b.get)
  mul a b := fl (XR.mul a.get b.get)
  div a b := fl (XR.div a.get b.get)
  log a := fl (XR.log a.get)
  exp a := fl (XR.exp a.get)
  log1p a := fl (GoFloat.log1p a.get)
  sqrt a := fl (XR.sqrt a.get)
  ninf := ⟨.ninf⟩
  lt a b := XR.lt a.get b.get
  le a b := GoFloat.le a.get b.get
  eq a b := XR.eq a.get b.get
  isInf a := XR.isInf a.get
  toInt a := XR.toInt a.get
  round a := fl (XR.round a.get)
  floor a := fl (XR.floor a.get)
  abs a := fl (XR.abs a.get)
  pinf := ⟨.pinf⟩
  normLogProb m s x := fl (XR.normLogProb m.get s.get x.get)

theorem std (Ω : ℝ) : StdFloat Biased.get (1 / 2 ^ 20) 0 Ω where
  zero := by
    show XR.fin ((0 : Int) : ℝ) = _
    simp
  ninf := rfl
  lt _ _ := rfl
  isInf _ := rfl
  add a b x y ha hb _ := by
    obtain ⟨z, hz, he⟩ := fl_fin (x + y)
    refine ⟨z, ?_, by simpa using he⟩
    show (fl (XR.add a.get b.get)).get = _
    rw [ha, hb]
    exact hz
  add_left a b ha hb := by
    show (fl (XR.add a.get b.get)).get = _
    rw [ha]
    rcases IsLogProb.cases hb with h | ⟨r, h⟩ <;> rw [h] <;> rfl
  add_right a b ha hb := by
    show (fl (XR.add a.get b.get)).get = _
    rw [hb]
    rcases IsLogProb.cases ha with h | ⟨r, h⟩ <;> rw [h] <;> rfl
  sub a b x y ha hb _ := by
    obtain ⟨z, hz, he⟩ := fl_fin (x - y)
    refine ⟨z, ?_, by simpa using he⟩
    show (fl (XR.sub a.get b.get)).get = _
    rw [ha, hb, XR.sub_fin]
    exact hz
  sub_left a b y ha hb := by
    show (fl (XR.sub a.get b.get)).get = _
    rw [ha, hb]
    rfl
  exp a x ha _ := by
    obtain ⟨z, hz, he⟩ := fl_fin (Real.exp x)
    rw [abs_of_pos (Real.exp_pos x)] at he
    refine ⟨z, ?_, by simpa using he⟩
    show (fl (XR.exp a.get)).get = _
    rw [ha]
    exact hz
  exp_ninf a ha := by
    show (fl (XR.exp a.get)).get = _
    rw [ha, XR.exp_ninf]
    simp [fl]
  log a x ha hx _ := by
    obtain ⟨z, hz, he⟩ := fl_fin (Real.log x)
    refine ⟨z, ?_, by simpa using he⟩
    show (fl (XR.log a.get)).get = _
    rw [ha, XR.log_pos hx]
    exact hz
  log_zero a ha := by
    show (fl (XR.log a.get)).get = _
    rw [ha, XR.log_zero]
    rfl

theorem div_law (τ Ω : ℝ) : DivFloat Biased.get (1 / 2 ^ 20) τ Ω where
  zero := by
    show XR.fin ((0 : Int) : ℝ) = _
    simp
  lt _ _ := rfl
  add a b x y ha hb hx hy _ := by
    obtain ⟨z, hz, he⟩ := fl_fin (x + y)
    rw [abs_of_nonneg (add_nonneg hx hy)] at he
    refine ⟨z, ?_, he⟩
    show (fl (XR.add a.get b.get)).get = _
    rw [ha, hb]
    exact hz
  sub a b x y ha hb _ := by
    obtain ⟨z, hz, he⟩ := fl_fin (x - y)
    refine ⟨z, ?_, he⟩
    show (fl (XR.sub a.get b.get)).get = _
    rw [ha, hb, XR.sub_fin]
    exact hz
  div a b x y ha hb hx hy _ _ := by
    obtain ⟨z, hz, he⟩ := fl_fin (x / y)
    rw [abs_of_nonneg (div_nonneg hx hy.le)] at he
    refine ⟨z, ?_, he⟩
    show (fl (XR.div a.get b.get)).get = _
    have : XR.div a.get b.get = .fin (x / y) := by rw [ha, hb]; simp [XR.div, hy.ne']
    rw [this]
    exact hz

end Biased

/-- The network of the examples with weights 1 and 3 that have yet to be normalised. -/
noncomputable def rawNet : Net (Fin 7) Biased := ⟨![.sum [1, 2] [⟨.fin 1⟩, ⟨.fin 3⟩], .product [3, 4], .product [5, 6],
  .leaf (.multinomial [0] 0 [⟨.fin (1 / 2)⟩, ⟨.fin (1 / 2)⟩] 1 ⟨.fin (1 / 2)⟩),
  .leaf (.multinomial [1] 1 [⟨.fin (1 / 3)⟩, ⟨.fin (2 / 3)⟩] 1 ⟨.fin (2 / 3)⟩),
  .leaf (.indicator 0 0), .leaf (.multinomial [1] 1 [⟨.fin 1⟩, ⟨.fin 0⟩] 0 ⟨.fin 1⟩)]⟩

theorem biased_same {L δ x : ℝ} (hx : 0 < x) (hδ : 0 ≤ δ) (h : |Real.log x| ≤ L) : Stores Biased.get L δ ⟨.fin x⟩ (.fin x) :=
  ⟨x, x, rfl, rfl, hx.le, hx.le, Iff.rfl, fun _ => ⟨h, by simpa using hδ⟩⟩

theorem rawNet_shares (n : Fin 7) : SharesNode Biased.get 2 3 (1 / 1000) 1000 (StoresLeaf Biased.get (VarSet.single 1 0) 3 (1 / 2 ^ 13)) (rawNet.kind n) (mixNet.kind n) := by
  have hl2 : 0 ≤ Real.log 2 := Real.log_nonneg (by norm_num)
  have up : ∀ {x : ℝ}, |Real.log x| ≤ 3 - Real.log 2 → |Real.log x| ≤ 3 := fun h => by linarith
  have hv : ∀ {v u : Int} {m : ℕ}, 2 ≤ m → VarSet.single 1 0 v = some u → 0 ≤ u ∧ u < m := by
    intro v u m hm h
    unfold VarSet.single at h
    split at h
    · cases h
      omega
    · cases h
  fin_cases n
  · refine ⟨rfl, by simp, le_rfl, rfl, [1, 3], rfl, by simp, by norm_num, by norm_num, by norm_num [mixNet], ?_⟩
    have hq : Real.exp (-(3 - Real.log (2 : ℕ))) ≤ 1 / 4 := by
      have h1 := log_quarter (x := 1 / 4) le_rfl (by norm_num)
      have h2 := (abs_le.1 h1).1
      calc Real.exp (-(3 - Real.log (2 : ℕ))) ≤ Real.exp (Real.log (1 / 4)) := Real.exp_le_exp.2 (by push_cast; linarith)
        _ = 1 / 4 := Real.exp_log (by norm_num)
    intro x hx
    simp only [List.mem_cons, List.not_mem_nil, or_false] at hx
    right
    rcases hx with rfl | rfl <;> refine ⟨by norm_num, le_trans hq (by norm_num)⟩
  · rfl
  · rfl
  · refine ⟨rfl, .cons ?_ (.cons ?_ .nil), fun u h => hv le_rfl h⟩
    · exact biased_same (by norm_num) (by positivity) (up (log_quarter (by norm_num) (by norm_num)))
    · exact biased_same (by norm_num) (by positivity) (up (log_quarter (by norm_num) (by norm_num)))
  · refine ⟨rfl, .cons ?_ (.cons ?_ .nil), fun u h => hv le_rfl h⟩
    · exact biased_same (by norm_num) (by positivity) (up (log_quarter (by norm_num) (by norm_num)))
    · exact biased_same (by norm_num) (by positivity) (up (log_quarter (by norm_num) (by norm_num)))
  · exact ⟨rfl, rfl⟩
  · refine ⟨rfl, .cons ?_ (.cons ?_ .nil), fun u h => hv le_rfl h⟩
    · exact biased_same (by norm_num) (by positivity) (by simp)
    · exact ⟨0, 0, rfl, rfl, le_rfl, le_rfl, Iff.rfl, fun h => absurd rfl h⟩

/-- The hypotheses of `C128_normalize` and `C128_total` for weights one of which is negative; `C128_spn` for others. -/
example : DivFloat Biased.get (1 / 2 ^ 20) (1 / 1000) 1000 ∧ ([⟨.fin (-1)⟩, ⟨.fin 3⟩] : List Biased).map Biased.get = ([-1, 3] : List ℝ).map XR.fin ∧ 0 < (shiftNonneg [-1, 3]).sum ∧
    (2 : ℝ) * (1 / 2 ^ 20) * (2 + 3 : ℕ) ≤ 1 ∧ 3 * (shiftNonneg [-1, 3]).sum ≤ 1000 ∧ (∀ x ∈ shiftNonneg [-1, 3], x = 0 ∨ 3 * (1 / 1000) ≤ x / (shiftNonneg [-1, 3]).sum) ∧
    ([⟨.fin 1⟩, ⟨.fin 3⟩] : List Biased).map Biased.get = ([1, 3] : List ℝ).map XR.fin ∧ (∀ x ∈ ([1, 3] : List ℝ), x = 0 ∨ 3 * (1 / 1000) ≤ x / ([1, 3] : List ℝ).sum) := by
  have h : shiftNonneg [-1, 3] = [0, 4] := by norm_num [shiftNonneg, minOrZero]
  refine ⟨Biased.div_law _ _, rfl, by rw [h]; norm_num, by norm_num, by rw [h]; norm_num, ?_, rfl, ?_⟩
  · rw [h]
    intro x hx
    simp only [List.mem_cons, List.not_mem_nil, or_false] at hx
    rcases hx with rfl | rfl
    · exact Or.inl rfl
    · right; norm_num
  · intro x hx
    simp only [List.mem_cons, List.not_mem_nil, or_false] at hx
    rcases hx with rfl | rfl <;> right <;> norm_num

/-- The hypotheses of `C128_distribution` hold for `rawNet` and partial evidence. -/
example : StdFloat Biased.get (1 / 2 ^ 20) 0 1000 ∧ DivFloat Biased.get (1 / 2 ^ 20) (1 / 1000) 1000 ∧ (∀ u, ∀ c ∈ mixNet.ch u, (![2, 1, 1, 0, 0, 0, 0] : Fin 7 → ℕ) c < (![2, 1, 1, 0, 0, 0, 0] : Fin 7 → ℕ) u) ∧
    IsComplete mixNet 0 ∧ IsDecomposable mixNet 0 ∧ DiscreteLeaves mixNet 0 (fun _ => {0, 1}) ∧ (∀ n, mixNet.ch n = rawNet.ch n) ∧
    (∀ n, Reach mixNet.ch 0 n → SharesNode Biased.get 2 3 (1 / 1000) 1000 (StoresLeaf Biased.get (VarSet.single 1 0) 3 (1 / 2 ^ 13)) (rawNet.kind n) (mixNet.kind n)) ∧
    10 = scopeSize mixNet 0 * (2 * (![2, 1, 1, 0, 0, 0, 0] : Fin 7 → ℕ) 0 + 1) ∧ (39 : ℝ) = 3 * ((10 : ℕ) + 1) + (2 : ℕ) + 4 ∧ 2 * (1 / 2 ^ 20) * (39 : ℝ) + 0 ≤ 1 / 2 ^ 13 ∧
    (8 * ((2 : ℕ) : ℝ) + 5) * (1 / 2 ^ 13) * ((10 : ℕ) : ℝ) ≤ 1 :=
  ⟨Biased.std _, Biased.div_law _ _, fun u v h => by have := mixNet_rank u v h; omega, mixNet_complete, mixNet_decomposable, mixNet_discrete, fun n => by fin_cases n <;> rfl, fun n _ => rawNet_shares n,
    by rw [mixNet_scopeSize]; rfl, by norm_num, by norm_num, by norm_num⟩

end Gospn
