import Verif.Proofs.RoundMapStore
import Verif.Props.RoundMax
import Verif.Props.HalfImg
/-!
Property C127: `StoreMAP` and the completion of images under rounding.
-/
set_option linter.unusedSectionVars false
set_option linter.unusedSimpArgs false
namespace Gospn
open Spec
variable {ι F : Type} [DecidableEq ι] [Fintype ι] [GoFloat F] {val : F → XR}

/-- A state that attains the computed MAP value up to `E` is nearly the most probable one. -/
theorem nearMapState_of (M : Net ι XR) (S : ι) (I J : VarSet) (dom : Int → Set Int) (E : ℝ) (hac' : Acyclic M.ch) (hw : NonnegWeights M S)
    (hl : ∀ n l, Reach M.ch S n → M.kind n = .leaf l → MaxLeaf dom l) (hI : InDomain M S dom I) {v : F} {y : XR} {a : ℝ} (g2 : M.max I S = some y) (g3 : Within E (val v) y) (ha : val v = .fin a)
    (h2 : ∀ v, (∃ x, J v = some x) ↔ InScope M S v) (h3 : ∀ v x, InScope M S v → I v = some x → J v = some x) (h4 : ∀ v x, J v = some x → x ∈ dom v) (h5 : Real.exp (a - E) ≤ M.pmax J S) :
    NearMapState val M S dom I J v E := by
  have hJd : InDomain M S dom J := fun u _ x hx => h4 u x hx
  have hext : Extends M S I J := fun u hu x hx => h3 u x hu hx
  obtain ⟨yJ, yI, k1, k2, k3, k4, k5⟩ := C08_max_upper_bound M S dom I J hac' hw hl hI hJd hext
  rw [g2] at k2
  cases k2
  rw [Net.pmax_some k1] at h5
  have hup := (close_unlog g3).2
  rw [ha, unlog_fin] at hup
  refine ⟨h2, hext, h4, yJ, k1, ?_, fun J' hJ' hext' => ?_⟩
  · rcases IsLogProb.cases k3 with rfl | ⟨b, rfl⟩
    · rw [unlog_ninf] at h5
      exact absurd h5 (not_le.2 (Real.exp_pos _))
    · rw [ha]
      rw [unlog_fin] at h5 k5
      have c1 := Real.exp_le_exp.1 h5
      have c2 : Real.exp b ≤ Real.exp (a + E) := by
        rw [Real.exp_add, mul_comm]
        exact le_trans k5 hup
      have c3 := Real.exp_le_exp.1 c2
      simp only [Within]
      rw [abs_le]
      constructor <;> linarith
  · obtain ⟨y', yI', m1, m2, m3, m4, m5⟩ := C08_max_upper_bound M S dom I J' hac' hw hl hI hJ' hext'
    rw [g2] at m2
    cases m2
    refine ⟨y', m1, ?_⟩
    have e : Real.exp (a - E) = Real.exp (-(2 * E)) * (Real.exp E * Real.exp a) := by
      rw [← Real.exp_add, ← Real.exp_add]
      congr 1
      ring
    rw [e] at h5
    exact le_trans (mul_le_mul_of_nonneg_left (le_trans m5 hup) (Real.exp_pos _).le) h5

/-- C127 (`StoreMAP`, any leaves whose own value and mode are accurate). Under the conditions of `C100_argMax`, and those of C07 on the graph (a root with children, no child reachable from a sibling listed after
it), for any storage a client can reach, any usable ticket and any way of breaking ties: if the computed MAP value is not minus infinity, `StoreMAP` returns a state whose exact probability is
within a factor of `exp (2E)` of the best one, where `E` is `3·ε` times the cost. -/
theorem C127_storeMAP (N : Net ι F) (M : Net ι XR) (S : ι) (I : VarSet) (dom : Int → Set Int) (K : ℕ) (L ε : ℝ) (cost : ι → ℕ) (hac : Acyclic N.ch) (hR : RoundsOn val (L * (cost S + 1) + 4) ε)
    (heq : ∀ a b, GoFloat.eq a b = XR.eq (val a) (val b)) (hL : Real.log K ≤ L) (hK : 1 ≤ K)
    (hs : StoresNet val N S K L ε (fun l m => MaxWithin val I L (2 * ε) l m ∧ ModeWithin val dom I (2 * ε) l m) M) (hcost : Cost N S cost)
    (hsmall : 3 * ε * cost S ≤ 1) (hcS : 1 ≤ cost S) (hcomp : IsComplete M S) (hdec : IsDecomposable M S) (hw : NonnegWeights M S)
    (hl : ∀ n l, Reach M.ch S n → M.kind n = .leaf l → MaxLeaf dom l) (hI : InDomain M S dom I) (hso : SiblingOrdered N.ch S) (hS : N.ch S ≠ [])
    (v : F) (a : ℝ) (hv : N.max I S = some v) (ha : val v = .fin a) (ops : List (StOp ι F)) (c : Client ι F) (outs : List (StOut F))
    (hr : Client.new.run ops = some (c, outs)) (tk : Int) (ht : tk < 0 ∨ c.s.table tk ≠ none) (pick : ι → Nat → Nat) :
    ∃ J st', N.storeMAP S I tk c.s pick = some (some (S, usedTicket c.s tk, J), st') ∧ NearMapState val M S dom I J v (3 * ε * cost S) := by
  have hL0 : 0 ≤ L := le_trans (Real.log_nonneg (by exact_mod_cast hK)) hL
  have hac' : Acyclic M.ch := by rw [funext hs.1]; exact hac
  obtain ⟨st', get, q1, q2⟩ := storeMAP_phases N S I hac hso hS ops c outs hr tk ht pick (by rw [hv]; simp)
  have hgS := q1 S Relation.ReflTransGen.refl
  rw [hv] at hgS
  cases hgS
  obtain ⟨J, h1, h2, h3, h4, h5⟩ := storeMAP_close (pick := pick) hac hR heq hL0 hL hK hs hcost hsmall hcS hcomp hdec hw hl q1 ha
  obtain ⟨v', y, g1, g2, g3⟩ := C100_max N M S I K L ε cost hac hR hL hK (by
    refine ⟨hs.1, fun n hn => ?_⟩
    have h2 := hs.2 n hn
    revert h2
    cases N.kind n <;> cases M.kind n <;> first | exact id | exact fun h => h.1) hcost hsmall hcS S Relation.ReflTransGen.refl
  rw [hv] at g1
  cases g1
  exact ⟨J, st', by rw [q2, h1]; rfl, nearMapState_of M S I J dom _ hac' hw hl hI g2 g3 ha h2 h3 h4 h5⟩

/-- The conditions of `C100_standard`: `N` stores, in arithmetic with relative error `u` and absolute error `η` below `Ω`, the network `M` with multinomial leaves and indicators of the value 0 or of a known
variable, and the bound `E` on the error of the MAP value is at most 1. -/
structure StandardMap (val : F → XR) (N : Net ι F) (M : Net ι XR) (S : ι) (dom : Int → Set Int) (I : VarSet) (K T : ℕ) (L u η Ω B ε : ℝ) (rank : ι → ℕ) : Prop where
  std : StdFloat val u η Ω
  equal : ∀ a b, GoFloat.eq a b = XR.eq (val a) (val b)
  u_nonneg : 0 ≤ u
  η_nonneg : 0 ≤ η
  rank_lt : ∀ u, ∀ c ∈ M.ch u, rank c < rank u
  complete : IsComplete M S
  decomposable : IsDecomposable M S
  weights : NonnegWeights M S
  leaves : ∀ n l, Reach M.ch S n → M.kind n = .leaf l → MaxLeaf dom l
  evidence : InDomain M S dom I
  scopes : ∀ n, Reach M.ch S n → ∃ v, InScope M n v
  same : ∀ n, M.ch n = N.ch n
  log_K : Real.log K ≤ L
  one_K : 1 ≤ K
  stores : ∀ n, Reach M.ch S n → StoresNode val K L ε (StoresModeLeaf val dom I L ε) (N.kind n) (M.kind n)
  size : T = scopeSize M S * (2 * rank S + 1)
  range : B = L * (T + 1) + 4
  error : 2 * u * B + η ≤ ε
  range_le : 2 * B ≤ Ω
  small : 3 * ε * T ≤ 1
  siblings : SiblingOrdered N.ch S
  inner : N.ch S ≠ []

/-- **C127** (the standard model of floating point arithmetic). As long as `3·ε·T ≤ 1` and the exact MAP value is positive, `StoreMAP` returns, whatever the storage and the tie breaking, a state that no other one
exceeds in exact probability by a factor of more than `exp (6·ε·T)`. -/
theorem C127_standard (N : Net ι F) (M : Net ι XR) (S : ι) (I : VarSet) (dom : Int → Set Int) (K T : ℕ) (L u η Ω B ε : ℝ) (rank : ι → ℕ) (h : StandardMap val N M S dom I K T L u η Ω B ε rank)
    (b : ℝ) (hb : M.max I S = some (.fin b)) (ops : List (StOp ι F)) (c : Client ι F) (outs : List (StOut F))
    (hr : Client.new.run ops = some (c, outs)) (tk : Int) (ht : tk < 0 ∨ c.s.table tk ≠ none) (pick : ι → Nat → Nat) :
    ∃ v J st', N.max I S = some v ∧ N.storeMAP S I tk c.s pick = some (some (S, usedTicket c.s tk, J), st') ∧ NearMapState val M S dom I J v (3 * ε * T) := by
  obtain ⟨hF, heq, hu, hη, hrank, hcomp, hdec, hw, hl, hI, hsc, hch, hL, hK, hs, hT, hB, hε, hΩ, hsmall, hso, hS⟩ := h
  have hK1 : (1 : ℝ) ≤ K := by exact_mod_cast hK
  have hL0 : 0 ≤ L := le_trans (Real.log_nonneg hK1) hL
  have hT0 : (0 : ℝ) ≤ T := Nat.cast_nonneg _
  have hLT : 0 ≤ L * T := mul_nonneg hL0 hT0
  have hB4 : 4 ≤ B := by nlinarith
  have huB : 0 ≤ u * B := mul_nonneg hu (by linarith)
  have hε0 : 0 ≤ ε := by nlinarith
  have hR : RoundsOn val B ε := hF.roundsOn hu hΩ (by linarith) (by linarith) (by nlinarith) (by nlinarith)
  have hcS : 1 ≤ T := by
    have : 1 ≤ scopeSize M S := (Set.ncard_pos (inScope_finite M S)).2 (hsc S Relation.ReflTransGen.refl)
    rw [hT]
    nlinarith
  have hcS1 : (1 : ℝ) ≤ T := by exact_mod_cast hcS
  have hε1 : ε ≤ 1 := by nlinarith
  have hchf : M.ch = N.ch := funext hch
  have hst : StoresNet val N S K L ε (fun l m => MaxWithin val I L (2 * ε) l m ∧ ModeWithin val dom I (2 * ε) l m) M := by
    refine ⟨hch, fun n hn => ?_⟩
    have hn' : Reach M.ch S n := by rw [hchf]; exact hn
    have hn2 := hs n hn'
    have hl2 := hl n
    have hI2 : ∀ m, M.kind n = .leaf m → ∀ u, I (leafVar m) = some u → u ∈ dom (leafVar m) := fun m hm u hu => hI (leafVar m) ⟨n, m, hn', hm, rfl⟩ u hu
    revert hn2 hl2 hI2
    cases N.kind n <;> cases M.kind n <;> try exact fun h _ _ => h
    intro h hl2 hI2
    rw [two_mul]
    exact storesModeLeaf_within hR hL0 hε0 (by nlinarith) h (hl2 _ hn' rfl) (hI2 _ rfl)
  have hcost : Cost N S fun n => scopeSize M n * (2 * rank n + 1) := storesNet_cost hst (C99_cost M S rank hrank hdec hsc)
  have hac : Acyclic N.ch := ⟨rank, by rw [← hchf]; exact hrank⟩
  rw [hB, hT] at hR
  rw [hT] at hsmall hcS ⊢
  obtain ⟨v, y, h1, h2, h3⟩ := C100_max N M S I K L ε (fun n => scopeSize M n * (2 * rank n + 1)) hac hR hL hK (by
    refine ⟨hch, fun n hn => ?_⟩
    have h2 := hst.2 n hn
    revert h2
    cases N.kind n <;> cases M.kind n <;> first | exact id | exact fun h => h.1) hcost hsmall hcS S Relation.ReflTransGen.refl
  rw [hb] at h2
  cases h2
  rcases h3.cases with ⟨_, h⟩ | ⟨a, _, ha, _, _⟩
  · cases h
  · obtain ⟨J, st', g1, g2⟩ := C127_storeMAP N M S I dom K L ε (fun n => scopeSize M n * (2 * rank n + 1)) hac hR heq hL hK hst hcost hsmall hcS hcomp hdec hw hl hI hso hS v a h1 ha ops c outs hr tk ht pick
    exact ⟨v, J, st', h1, g1, g2⟩

/-- **C127** (completion of images). `halfImg` in floating point keeps exactly the pixels outside the half to be completed, and completes the rest of the network's variables with a state that is, given those
pixels, within a factor of `exp (6·ε·T)` of the most probable one, for every order of the map and every way ties are broken. -/
theorem C127_halfImg (N : Net ι F) (M : Net ι XR) (S : ι) (dom : Int → Set Int) (set : VarSet) (keys : List Int) (t : CmplType) (w h : Nat) (ht : t ≠ .other) (hk : ∀ k, k ∈ keys ↔ ∃ v, set k = some v)
    (hp : ∀ k ∈ keys, IsImgPixel w h k) (K T : ℕ) (L u η Ω B ε : ℝ) (rank : ι → ℕ) (pick : ι → Nat → Nat)
    (hm : ∀ half, KnownHalf set t w h half → StandardMap val N M S dom half K T L u η Ω B ε rank ∧ ∃ b : ℝ, M.max half S = some (.fin b)) :
    ∃ half cmpl J v, halfImg N S set keys t w h pick = some (cmpl, half) ∧ KnownHalf set t w h half ∧ NearMapState val M S dom half J v (3 * ε * T) ∧
      (∀ v, cmpl v = if (half v).isSome then none else J v) ∧ (∀ v, (∃ x, cmpl v = some x) ↔ InScope M S v ∧ half v = none) := by
  obtain ⟨half, h1, h2⟩ := knownHalf_spec ht hk hp
  obtain ⟨h3, b, hb⟩ := hm half h2
  obtain ⟨v, J, st', _, g1, g2⟩ := C127_standard N M S half dom K T L u η Ω B ε rank h3 b hb [] Client.new [] rfl (-1) (Or.inl (by decide)) pick
  refine ⟨half, fun k => if (half k).isSome then none else J k, J, v, ?_, h2, g2, fun v => rfl, ?_⟩
  · unfold halfImg
    rw [h1, Option.bind_some]
    have g1' : N.storeMAP S half (-1) (Storer.new : Storer ι F) pick = some (some (S, usedTicket Client.new.s (-1), J), st') := g1
    rw [g1']
    rfl
  · intro v
    beta_reduce
    cases hv : half v with
    | none => simpa [hv] using g2.1 v
    | some x => simp [hv]

/-- The stored network of C99 meets the conditions, whatever is known. -/
theorem fixedNet_standardMap (I : VarSet) (hI : InDomain mixNet 0 (fun _ => {0, 1}) I) :
    StandardMap Fixed.get fixedNet mixNet 0 (fun _ => {0, 1}) I 2 10 3 0 (1 / 2 ^ 21) 1000 37 (1 / 2 ^ 19) (![2, 1, 1, 0, 0, 0, 0] : Fin 7 → ℕ) := by
  have hm := mixNet_map I hI
  have hch : mixNet.ch = fixedNet.ch := funext fixedNet_ch
  refine ⟨Fixed.std _, fun _ _ => rfl, le_rfl, by positivity, fun u v h => by have := mixNet_rank u v h; omega, hm.complete, hm.decomposable, hm.weights, hm.leaves, hI, ?_, fixedNet_ch, ?_, by norm_num, ?_,
    by rw [mixNet_scopeSize]; rfl, by norm_num, by norm_num, by norm_num, by norm_num, by rw [← hch]; exact mixNet_siblings, by rw [← hch]; decide⟩
  · intro n _
    have h1 := (mixNet_scope1 0).2 (Or.inl rfl)
    have h2 := (mixNet_scope2 0).2 (Or.inl rfl)
    fin_cases n
    · exact ⟨0, InScope.child (c := 1) (by simp [mixNet, Net.ch]) h1⟩
    · exact ⟨0, h1⟩
    · exact ⟨0, h2⟩
    all_goals exact ⟨_, (InScope.of_leaf rfl).2 rfl⟩
  · have := Real.log_le_sub_one_of_pos (show (0 : ℝ) < (2 : ℕ) by norm_num)
    norm_num at this ⊢
    linarith
  · intro n _
    have h := fixedNet_storesMode n
    fin_cases n <;> first | exact h | exact ⟨rfl, rfl, Or.inr ⟨rfl, by simp⟩⟩

/-- `C127_standard` without evidence; `C127_storeMAP` for what it derives from it. -/
example : StandardMap Fixed.get fixedNet mixNet 0 (fun _ => {0, 1}) (fun _ => none) 2 10 3 0 (1 / 2 ^ 21) 1000 37 (1 / 2 ^ 19) (![2, 1, 1, 0, 0, 0, 0] : Fin 7 → ℕ) ∧
    ∃ b, mixNet.max (fun _ => none) 0 = some (.fin b) :=
  ⟨fixedNet_standardMap _ (fun _ _ _ h => by cases h), mixNet_positive⟩

/-- `C127_halfImg`: the top half of an image of one column and two rows. -/
example : (∀ k, k ∈ ([0, 1] : List Int) ↔ ∃ v, ((VarSet.empty.set 0 1).set 1 1) k = some v) ∧ (∀ k ∈ ([0, 1] : List Int), IsImgPixel 1 2 k) ∧
    (∀ half, KnownHalf ((VarSet.empty.set 0 1).set 1 1) .top 1 2 half →
      StandardMap Fixed.get fixedNet mixNet 0 (fun _ => {0, 1}) half 2 10 3 0 (1 / 2 ^ 21) 1000 37 (1 / 2 ^ 19) (![2, 1, 1, 0, 0, 0, 0] : Fin 7 → ℕ) ∧ ∃ b : ℝ, mixNet.max half 0 = some (.fin b)) := by
  refine ⟨?_, ?_, ?_⟩
  · intro k
    by_cases h0 : k = 0 <;> by_cases h1 : k = 1 <;> simp [VarSet.set, VarSet.empty, h0, h1]
  · intro k hk
    simp only [List.mem_cons, List.not_mem_nil, or_false] at hk
    rcases hk with rfl | rfl
    · exact ⟨0, 0, by omega, by omega, by norm_num⟩
    · exact ⟨0, 1, by omega, by omega, by norm_num⟩
  · rintro half ⟨h1, h2⟩
    have : half = VarSet.single 1 1 := by
      funext k
      by_cases hk0 : k = 0
      · subst hk0
        have := (h2 0 0 (by omega) (by omega)).1 (by simp [InHalf])
        simpa [VarSet.single] using this
      · by_cases hk1 : k = 1
        · subst hk1
          have := (h2 0 1 (by omega) (by omega)).2 (by simp [InHalf])
          simpa [VarSet.single, VarSet.set] using this
        · rw [h1 k]
          · simp [VarSet.single, hk1]
          · rintro ⟨x, y, hx, hy, rfl⟩
            have : y = 0 ∨ y = 1 := by omega
            rcases this with rfl | rfl <;> omega
    subst this
    exact ⟨fixedNet_standardMap _ mixNet_known_domain, mixNet_positive_known⟩

end Gospn
