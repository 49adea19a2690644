import Verif.Proofs.RoundMax
import Verif.Props.Rounding
/-!
Property C100: `Max` and `ArgMax` under rounding.
-/
set_option linter.unusedSectionVars false
set_option linter.unusedSimpArgs false
namespace Gospn
open Spec
variable {ι F : Type} [DecidableEq ι] [Fintype ι] [GoFloat F] {val : F → XR}

/-- C100 (`Max`). Let the arithmetic be off by at most `ε` on the range that is needed, and let `N` store the network `M` of real numbers as in C99. Then `n.Max(I)` returns for every node below `S`, and what it returns
differs from the exact value of `M` by at most `3·ε` times the cost of the node, however many children sums have; it is minus infinity exactly if the exact value is. -/
theorem C100_max (N : Net ι F) (M : Net ι XR) (S : ι) (I : VarSet) (K : ℕ) (L ε : ℝ) (cost : ι → ℕ) (hac : Acyclic N.ch) (hR : RoundsOn val (L * (cost S + 1) + 4) ε)
    (hL : Real.log K ≤ L) (hK : 1 ≤ K) (hs : StoresNet val N S K L ε (MaxWithin val I L (2 * ε)) M) (hcost : Cost N S cost) (hsmall : 3 * ε * cost S ≤ 1) (hcS : 1 ≤ cost S) (n : ι) (hn : Reach N.ch S n) :
    ∃ v y, N.max I n = some v ∧ M.max I n = some y ∧ Within (3 * ε * cost n) (val v) y := by
  have hL0 : 0 ≤ L := le_trans (Real.log_nonneg (by exact_mod_cast hK)) hL
  obtain ⟨v, y, h1, h2, h3, _⟩ := max_close hac hR hL0 hL hK hs hcost hsmall hcS n hn
  exact ⟨v, y, h1, h2, h3⟩

/-- What C100 asks of the state `J` that is reported with the value `v`: it sets exactly the variables of `S`, to values of their domains, agrees with the evidence, `v` is its exact MAP value up to `E`, and
no state that agrees with the evidence is more probable by a factor of more than `exp (2·E)`. -/
def NearMapState (val : F → XR) (M : Net ι XR) (S : ι) (dom : Int → Set Int) (I J : VarSet) (v : F) (E : ℝ) : Prop :=
  (∀ v, (∃ x, J v = some x) ↔ InScope M S v) ∧ Extends M S I J ∧ (∀ v x, J v = some x → x ∈ dom v) ∧
    ∃ y, M.max J S = some y ∧ Within E (val v) y ∧ ∀ J', InDomain M S dom J' → Extends M S I J' → ∃ y', M.max J' S = some y' ∧ Real.exp (-(2 * E)) * unlog y' ≤ unlog y

/-- C100 (`ArgMax`, any leaves whose own value and mode are accurate). If the computed MAP value is not minus infinity, `ArgMax` returns it together with a state whose exact probability is
within a factor of `exp (2E)` of the best one, where `E` is `3·ε` times the cost. -/
theorem C100_argMax (N : Net ι F) (M : Net ι XR) (S : ι) (I : VarSet) (dom : Int → Set Int) (K : ℕ) (L ε : ℝ) (cost : ι → ℕ) (hac : Acyclic N.ch) (hR : RoundsOn val (L * (cost S + 1) + 4) ε)
    (hL : Real.log K ≤ L) (hK : 1 ≤ K) (hs : StoresNet val N S K L ε (fun l m => MaxWithin val I L (2 * ε) l m ∧ ModeWithin val dom I (2 * ε) l m) M) (hcost : Cost N S cost)
    (hsmall : 3 * ε * cost S ≤ 1) (hcS : 1 ≤ cost S) (hcomp : IsComplete M S) (hdec : IsDecomposable M S) (hw : NonnegWeights M S)
    (hl : ∀ n l, Reach M.ch S n → M.kind n = .leaf l → MaxLeaf dom l) (hI : InDomain M S dom I) (v : F) (a : ℝ) (hv : N.max I S = some v) (ha : val v = .fin a) :
    ∃ J, N.argMax I S = some (J, v) ∧ NearMapState val M S dom I J v (3 * ε * cost S) := by
  have hL0 : 0 ≤ L := le_trans (Real.log_nonneg (by exact_mod_cast hK)) hL
  have hac' : Acyclic M.ch := by rw [funext hs.1]; exact hac
  obtain ⟨J, h1, h2, h3, h4, h5⟩ := argMax_close hac hR hL0 hL hK hs hcost hsmall hcS hcomp hdec hw hl S Relation.ReflTransGen.refl v a hv ha
  obtain ⟨v', y, g1, g2, g3⟩ := C100_max N M S I K L ε cost hac hR hL hK (by
    refine ⟨hs.1, fun n hn => ?_⟩
    have h2 := hs.2 n hn
    revert h2
    cases N.kind n <;> cases M.kind n <;> first | exact id | exact fun h => h.1) hcost hsmall hcS S Relation.ReflTransGen.refl
  rw [hv] at g1
  cases g1
  have hJd : InDomain M S dom J := fun u _ x hx => h4 u x hx
  have hext : Extends M S I J := fun u hu x hx => h3 u x hu hx
  obtain ⟨yJ, yI, k1, k2, k3, k4, k5⟩ := C08_max_upper_bound M S dom I J hac' hw hl hI hJd hext
  rw [g2] at k2
  cases k2
  rw [Net.pmax_some k1] at h5
  have hup := (close_unlog g3).2
  rw [ha, unlog_fin] at hup
  set E := 3 * ε * cost S with hE
  refine ⟨J, h1, h2, hext, h4, yJ, k1, ?_, fun J' hJ' hext' => ?_⟩
  · rcases IsLogProb.cases k3 with rfl | ⟨b, rfl⟩
    · rw [unlog_ninf] at h5
      exact absurd h5 (not_le.2 (Real.exp_pos _))
    · rw [ha]
      rw [unlog_fin] at h5 k5
      have c1 := Real.exp_le_exp.1 h5
      have c2 : Real.exp b ≤ Real.exp (a + E) := by
        rw [Real.exp_add, mul_comm]
        exact le_trans k5 hup
      have c3 := Real.exp_le_exp.1 c2
      simp only [Within]
      rw [abs_le]
      constructor <;> linarith
  · obtain ⟨y', yI', m1, m2, m3, m4, m5⟩ := C08_max_upper_bound M S dom I J' hac' hw hl hI hJ' hext'
    rw [g2] at m2
    cases m2
    refine ⟨y', m1, ?_⟩
    have e : Real.exp (a - E) = Real.exp (-(2 * E)) * (Real.exp E * Real.exp a) := by
      rw [← Real.exp_add, ← Real.exp_add]
      congr 1
      ring
    rw [e] at h5
    exact le_trans (mul_le_mul_of_nonneg_left (le_trans m5 hup) (Real.exp_pos _).le) h5

/-- C100 (the standard model of floating point arithmetic). Under the conditions of `C99_standard`, with leaves that are multinomials or indicators of the value 0 (or of a known variable): as long as
`3·ε·T ≤ 1`, `S.Max(I)` is within `3·ε·T` of its exact value, and if it is not minus infinity, `ArgMax` returns a state that no other one exceeds in exact probability by a factor of more than `exp (6·ε·T)`. -/
theorem C100_standard (N : Net ι F) (M : Net ι XR) (S : ι) (I : VarSet) (dom : Int → Set Int) (K T : ℕ) (L u η Ω B ε : ℝ) (rank : ι → ℕ) (hF : StdFloat val u η Ω) (hu : 0 ≤ u) (hη : 0 ≤ η)
    (hrank : ∀ u, ∀ c ∈ M.ch u, rank c < rank u) (hcomp : IsComplete M S) (hdec : IsDecomposable M S) (hw : NonnegWeights M S)
    (hl : ∀ n l, Reach M.ch S n → M.kind n = .leaf l → MaxLeaf dom l) (hI : InDomain M S dom I) (hsc : ∀ n, Reach M.ch S n → ∃ v, InScope M n v)
    (hch : ∀ n, M.ch n = N.ch n) (hL : Real.log K ≤ L) (hK : 1 ≤ K) (hs : ∀ n, Reach M.ch S n → StoresNode val K L ε (StoresModeLeaf val dom I L ε) (N.kind n) (M.kind n))
    (hT : T = scopeSize M S * (2 * rank S + 1)) (hB : B = L * (T + 1) + 4) (hε : 2 * u * B + η ≤ ε) (hΩ : 2 * B ≤ Ω) (hsmall : 3 * ε * T ≤ 1) :
    ∃ v y, N.max I S = some v ∧ M.max I S = some y ∧ Within (3 * ε * T) (val v) y ∧ (y ≠ .ninf → ∃ J, N.argMax I S = some (J, v) ∧ NearMapState val M S dom I J v (3 * ε * T)) := by
  have hK1 : (1 : ℝ) ≤ K := by exact_mod_cast hK
  have hL0 : 0 ≤ L := le_trans (Real.log_nonneg hK1) hL
  have hT0 : (0 : ℝ) ≤ T := Nat.cast_nonneg _
  have hLT : 0 ≤ L * T := mul_nonneg hL0 hT0
  have hB4 : 4 ≤ B := by nlinarith
  have huB : 0 ≤ u * B := mul_nonneg hu (by linarith)
  have hε0 : 0 ≤ ε := by nlinarith
  have hR : RoundsOn val B ε := hF.roundsOn hu hΩ (by linarith) (by linarith) (by nlinarith) (by nlinarith)
  have hcS : 1 ≤ T := by
    have : 1 ≤ scopeSize M S := (Set.ncard_pos (inScope_finite M S)).2 (hsc S Relation.ReflTransGen.refl)
    rw [hT]
    nlinarith
  have hcS1 : (1 : ℝ) ≤ T := by exact_mod_cast hcS
  have hε1 : ε ≤ 1 := by nlinarith
  have hchf : M.ch = N.ch := funext hch
  have hst : StoresNet val N S K L ε (fun l m => MaxWithin val I L (2 * ε) l m ∧ ModeWithin val dom I (2 * ε) l m) M := by
    refine ⟨hch, fun n hn => ?_⟩
    have hn' : Reach M.ch S n := by rw [hchf]; exact hn
    have hn2 := hs n hn'
    have hl2 := hl n
    have hI2 : ∀ m, M.kind n = .leaf m → ∀ u, I (leafVar m) = some u → u ∈ dom (leafVar m) := fun m hm u hu => hI (leafVar m) ⟨n, m, hn', hm, rfl⟩ u hu
    revert hn2 hl2 hI2
    cases N.kind n <;> cases M.kind n <;> try exact fun h _ _ => h
    intro h hl2 hI2
    rw [two_mul]
    exact storesModeLeaf_within hR hL0 hε0 (by nlinarith) h (hl2 _ hn' rfl) (hI2 _ rfl)
  have hcost : Cost N S fun n => scopeSize M n * (2 * rank n + 1) := storesNet_cost hst (C99_cost M S rank hrank hdec hsc)
  have hac : Acyclic N.ch := ⟨rank, by rw [← hchf]; exact hrank⟩
  rw [hB, hT] at hR
  rw [hT] at hsmall hcS ⊢
  obtain ⟨v, y, h1, h2, h3⟩ := C100_max N M S I K L ε (fun n => scopeSize M n * (2 * rank n + 1)) hac hR hL hK (by
    refine ⟨hch, fun n hn => ?_⟩
    have h2 := hst.2 n hn
    revert h2
    cases N.kind n <;> cases M.kind n <;> first | exact id | exact fun h => h.1) hcost hsmall hcS S Relation.ReflTransGen.refl
  refine ⟨v, y, h1, h2, h3, fun hy => ?_⟩
  rcases h3.cases with ⟨_, h⟩ | ⟨a, b, ha, hb, _⟩
  · exact absurd h hy
  · exact C100_argMax N M S I dom K L ε (fun n => scopeSize M n * (2 * rank n + 1)) hac hR hL hK hst hcost hsmall hcS hcomp hdec hw hl hI v a h1 ha

theorem fixedNet_storesMode (n : Fin 7) : StoresNode Fixed.get 2 3 (1 / 2 ^ 19) (StoresModeLeaf Fixed.get (fun _ => {0, 1}) (fun _ => none) 3 (1 / 2 ^ 19)) (fixedNet.kind n) (mixNet.kind n) := by
  have h := fixedNet_stores n
  have hlt : ∀ x y : ℝ, y ≤ x → GoFloat.lt (F := Fixed) ⟨.fin x⟩ ⟨.fin y⟩ = false := by
    intro x y h
    show XR.lt (.fin x) (.fin y) = false
    simpa [XR.lt] using h
  fin_cases n
  · exact h
  · exact h
  · exact h
  · refine ⟨rfl, h.2.1, 1, rfl, rfl, ?_, by simp⟩
    intro p hp
    simp only [List.mem_cons, List.not_mem_nil, or_false] at hp
    rcases hp with rfl | rfl <;> exact hlt _ _ (by norm_num)
  · refine ⟨rfl, h.2.1, 1, rfl, rfl, ?_, by simp⟩
    intro p hp
    simp only [List.mem_cons, List.not_mem_nil, or_false] at hp
    rcases hp with rfl | rfl <;> exact hlt _ _ (by norm_num)
  · exact ⟨rfl, rfl, Or.inr ⟨rfl, by simp⟩⟩
  · refine ⟨rfl, h.2.1, 0, rfl, rfl, ?_, by simp⟩
    intro p hp
    simp only [List.mem_cons, List.not_mem_nil, or_false] at hp
    rcases hp with rfl | rfl <;> exact hlt _ _ (by norm_num)

/-- The hypotheses of `C100_standard` hold for the stored network of C99 without evidence; its exact MAP value is positive. -/
example : StdFloat Fixed.get 0 (1 / 2 ^ 21) 1000 ∧ (∀ u, ∀ c ∈ mixNet.ch u, (![2, 1, 1, 0, 0, 0, 0] : Fin 7 → ℕ) c < (![2, 1, 1, 0, 0, 0, 0] : Fin 7 → ℕ) u) ∧
    MapNet mixNet 0 (fun _ => {0, 1}) (fun _ => none) ∧ (∀ n, mixNet.ch n = fixedNet.ch n) ∧
    (∀ n, Reach mixNet.ch 0 n → StoresNode Fixed.get 2 3 (1 / 2 ^ 19) (StoresModeLeaf Fixed.get (fun _ => {0, 1}) (fun _ => none) 3 (1 / 2 ^ 19)) (fixedNet.kind n) (mixNet.kind n)) ∧
    10 = scopeSize mixNet 0 * (2 * (![2, 1, 1, 0, 0, 0, 0] : Fin 7 → ℕ) 0 + 1) ∧ (37 : ℝ) = 3 * ((10 : ℕ) + 1) + 4 ∧ 2 * 0 * (37 : ℝ) + 1 / 2 ^ 21 ≤ 1 / 2 ^ 19 ∧
    3 * (1 / 2 ^ 19) * ((10 : ℕ) : ℝ) ≤ 1 ∧ ∃ a, mixNet.max (fun _ => none) 0 = some (.fin a) :=
  ⟨Fixed.std _, fun u v h => by have := mixNet_rank u v h; omega, mixNet_map _ (fun _ _ _ h => by cases h), fixedNet_ch, fun n _ => fixedNet_storesMode n, by rw [mixNet_scopeSize]; rfl, by norm_num, by norm_num,
    by norm_num, mixNet_positive⟩

end Gospn
