/-
C120: what a network learned in floating point arithmetic computes.
-/
import Verif.Proofs.GensFloat
import Verif.Props.Rounding
import Verif.Props.Evidence
import Mathlib.Tactic.FinCases

set_option linter.unusedSectionVars false
set_option linter.unusedSimpArgs false

namespace Gospn
open GoFloat Spec
variable {ι F : Type} [GoFloat F] {val : F → XR}

/-- A complete instance of the variables in the scope: each has one of its categories, and no other variable has a value. -/
def Spec.FullInstance (Sc : VarScope) (cats : Int → Int) (J : VarSet) : Prop :=
  ∀ v, if (Sc v).isSome then ∃ x, J v = some x ∧ 0 ≤ x ∧ x < cats v else J v = none

/-- The instance `J` has the values that the evidence `I` gives to variables of the scope. -/
def Spec.Agrees (Sc : VarScope) (I J : VarSet) : Prop := ∀ v x, (Sc v).isSome → I v = some x → J v = some x

/-- Nodes of a learned network are stored well. -/
theorem exact_storesNode {u₀ ε : ℝ} {Z n m K : ℕ} (hZ : IntFloat val u₀ Z) (hu : u₀ ≤ 1 / 2) (hε : 2 * u₀ ≤ ε) {cats : Int → Int} {q : Kind ι F} {e : Kind ι XR} (h : Exact n cats q e)
    (hnm : n ≤ m) (hmZ : m ≤ Z) (hK1 : 1 ≤ K) (hKs : ∀ cs w, q = .sum cs w → cs ≠ [] ∧ cs.length ≤ K) (I : VarSet)
    (hl : ∀ l, q = .leaf l → n + cats (leafVar l) ≤ m ∧ ∀ x, I (leafVar l) = some x → 0 ≤ x ∧ x < cats (leafVar l)) :
    StoresNode val K (Real.log m + Real.log K) ε (StoresLeaf val I (Real.log m + Real.log K) ε) q e := by
  cases q <;> cases e <;> simp only [Exact] at h
  · obtain ⟨rfl, c, k, hk, hkn, hs, hlen, rfl, rfl⟩ := h
    obtain ⟨h1, h2⟩ := hKs _ _ rfl
    refine ⟨rfl, h1, h2, by simp [hlen], ?_⟩
    rw [List.map_map, List.forall₂_map_left_iff, List.forall₂_map_right_iff, List.forall₂_same]
    intro a ha
    have hak : a ≤ k := by rw [← hs]; exact List.single_le_sum (by simp) a ha
    refine quotient_stores hZ hu hε _ _ ?_ ?_ hak hk (by omega) ?_
    · rw [hZ.ofInt a (by rw [abs_of_nonneg (by omega)]; omega)]; simp
    · rw [hZ.ofInt k (by rw [abs_of_nonneg (by omega)]; omega)]; simp
    · have : Real.log k ≤ Real.log m := Real.log_le_log (by exact_mod_cast hk) (by exact_mod_cast (by omega : k ≤ m))
      linarith
  · exact h
  · obtain ⟨sc, v, k, mv, k', mv', c, h1, h2, h3, h4, rfl, rfl⟩ := h
    obtain ⟨h5, h6⟩ := hl _ rfl
    simp only [leafVar] at h5 h6
    have hne : c ≠ [] := by rintro rfl; simp at h2; omega
    have hlK : 0 ≤ Real.log K := Real.log_nonneg (by exact_mod_cast hK1)
    refine ⟨rfl, (smoothed_stores hZ hu hε c h1 hne (n := m) (by omega) hmZ).imp ?_, fun x hx => ?_⟩
    · rintro a b ⟨r, s, e1, e2, e3, e4, e5, e6⟩
      exact ⟨r, s, e1, e2, e3, e4, e5, fun hs => ⟨by linarith [(e6 hs).1], (e6 hs).2⟩⟩
    · have := h6 x hx
      have hlen : (smoothed c : List F).length = c.length := by simp [smoothed]
      rw [hlen, h2]
      exact this

theorem wsum_pos : ∀ (r p : List ℝ), r.length = p.length → (∀ x ∈ r, 0 ≤ x) → (∀ x ∈ p, 0 < x) → 0 < r.sum → 0 < wsum r p := by
  intro r
  induction r with
  | nil => intro p _ _ _ h; simp at h
  | cons a r ih =>
    intro p hl hr hp hs
    cases p with
    | nil => simp at hl
    | cons b p =>
      rw [wsum_cons]
      have ha := hr a (by simp)
      have hb := hp b (by simp)
      have hw : 0 ≤ wsum r p := by
        refine List.sum_nonneg fun x hx => ?_
        rw [List.zipWith_eq_zipWith_take_min] at hx
        obtain ⟨i, hi, rfl⟩ := List.getElem_of_mem hx
        rw [List.getElem_zipWith]
        exact mul_nonneg (hr _ (List.mem_cons_of_mem _ (List.mem_of_mem_take (List.getElem_mem _)))) (hp _ (List.mem_cons_of_mem _ (List.mem_of_mem_take (List.getElem_mem _)))).le
      rcases ha.lt_or_eq with ha | ha
      · have := mul_pos ha hb
        linarith
      · rw [← ha, zero_mul, zero_add]
        refine ih p (by simpa using hl) (fun x hx => hr x (by simp [hx])) (fun x hx => hp x (by simp [hx])) ?_
        rw [List.sum_cons, ← ha, zero_add] at hs
        exact hs

theorem exact_leaf_value {n : ℕ} {cats : Int → Int} {q : Kind ι F} {e : Leaf XR} (h : Exact n cats q (.leaf e)) (I : VarSet) (hI : ∀ x, I (leafVar e) = some x → 0 ≤ x ∧ x < cats (leafVar e)) :
    ∃ r, e.value I = some (.fin r) := by
  cases q <;> simp only [Exact] at h
  obtain ⟨sc, v, k, mv, k', mv', c, h1, h2, h3, h4, rfl, rfl⟩ := h
  have hs : 0 ≤ c.sum := List.sum_nonneg h1
  simp only [leafVar] at hI
  cases hv : I v with
  | none => exact ⟨0, by simp [Leaf.value, hv]⟩
  | some x =>
    obtain ⟨hx0, hx1⟩ := hI x hv
    obtain ⟨i, rfl⟩ := Int.eq_ofNat_of_zero_le hx0
    have hi : i < c.length := by omega
    have hci := h1 _ (List.getElem_mem hi)
    have hpos : (0 : ℝ) < ((c[i] : ℝ) + 1) / ((c.sum : ℝ) + c.length) := by
      have a1 : (0 : ℝ) ≤ c[i] := by exact_mod_cast hci
      have a2 : (0 : ℝ) ≤ c.sum := by exact_mod_cast hs
      have a3 : (0 : ℝ) < c.length := by exact_mod_cast (by omega : 0 < c.length)
      positivity
    refine ⟨Real.log (((c[i] : ℝ) + 1) / ((c.sum : ℝ) + c.length)), ?_⟩
    simp [Leaf.value, hv, hi, goIdx]
    rw [XR.log_pos]
    simpa using hpos

variable [DecidableEq ι] [Fintype ι]

/-- A network with weights that add up to one and leaves of positive probability has a positive value. -/
theorem prob_positive {M : Net ι XR} {S : ι} {I : VarSet} (hac : Acyclic M.ch) (hw : DistWeights M S) (hl : ∀ n l, Reach M.ch S n → M.kind n = .leaf l → ∃ r, l.value I = some (.fin r)) :
    ∀ n, Reach M.ch S n → 0 < M.prob I n := by
  have hle : LeavesEval M S I := fun n l hn hk => by
    obtain ⟨r, hr⟩ := hl n l hn hk
    exact ⟨_, hr, trivial⟩
  obtain ⟨rank, hr⟩ := id hac
  intro n
  induction hn : rank n using Nat.strong_induction_on generalizing n with
  | _ k ih =>
    intro hreach
    have ihc : ∀ c ∈ M.ch n, 0 < M.prob I c := fun c hc => ih (rank c) (by rw [← hn]; exact hr n c hc) c rfl (Relation.ReflTransGen.tail hreach hc)
    obtain ⟨_, h2, h3⟩ := Net.prob_spec hac hw.nonneg hle hreach
    cases hk : M.kind n with
    | leaf l =>
      obtain ⟨r, hr⟩ := hl n l hreach hk
      unfold Net.prob
      rw [Net.value_unfold hac]
      unfold Net.valueStep
      rw [hk]
      simp only [hr, Option.map_some, Option.getD_some, unlog_fin]
      exact Real.exp_pos r
    | product cs =>
      rw [h2 cs hk]
      have hcs : M.ch n = cs := by simp [Net.ch, hk]
      refine List.prod_pos fun x hx => ?_
      obtain ⟨c, hc, rfl⟩ := List.mem_map.1 hx
      exact ihc c (by rw [hcs]; exact hc)
    | sum cs w =>
      have hcs : M.ch n = cs := by simp [Net.ch, hk]
      obtain ⟨r, rfl, h4, h5, h6⟩ := hw n hreach cs w hk
      rw [h3 cs r hk]
      refine wsum_pos _ _ (by simpa using h4) h5 ?_ (by rw [h6]; norm_num)
      intro x hx
      obtain ⟨c, hc, rfl⟩ := List.mem_map.1 hx
      exact ihc c (by rw [hcs]; exact hc)

/-- C120. Let `Learn` return a network in floating point arithmetic, on at most `Z` (for float64, 2⁵³) instances plus categories. There is a probability distribution `P` on the complete instances, positive everywhere, such that,
whatever the evidence, `Value` returns the logarithm of the probability of the evidence under `P` up to `(8K + 5)·ε·T`, where `K` bounds the number of children of a sum, `T` is the number of variables
times twice the height plus one, and `ε` is a rounding error of `Value`: `2·u·B + η` with `B = L·(T + 1) + K + 4` and `L = log m + log K`, if there are at most `m` instances and categories. -/
theorem C120_value {N : Net ι F} {g k : Int} (hg : g ≤ 0) {eps : F} {mp : Int} {Sc : VarScope} {D : List VarSet} {S : ι} (h : Learned N g k eps mp Sc D S) (cats : Int → Int) (hok : ScopeOk cats Sc)
    (keys : List Int) (hkeys : Sc.Order keys) (hne : keys ≠ []) (rank : ι → ℕ) (hrank : ∀ u, ∀ c ∈ N.ch u, rank c < rank u) (K m Z T : ℕ) (u η Ω L B ε : ℝ) (hF : StdFloat val u η Ω) (hZ : IntFloat val u Z)
    (hu : 0 ≤ u) (hu2 : u ≤ 1 / 2) (hη : 0 ≤ η) (hK1 : 1 ≤ K) (hK : ∀ n, Reach N.ch S n → ∀ cs w, N.kind n = .sum cs w → cs.length ≤ K)
    (hm : ∀ v ∈ keys, D.length + cats v ≤ m) (hmZ : m ≤ Z) (hT : T = keys.length * (2 * rank S + 1)) (hL : L = Real.log m + Real.log K) (hB : B = L * (T + 1) + K + 4)
    (hε : 2 * u * B + η ≤ ε) (hΩ : 2 * B ≤ Ω) (hsmall : (8 * K + 5) * ε * T ≤ 1) :
    ∃ (C : Finset VarSet) (P : VarSet → ℝ), (∀ J, J ∈ C ↔ FullInstance Sc cats J) ∧ (∀ J ∈ C, 0 < P J) ∧ ∑ J ∈ C, P J = 1 ∧
      ∀ I, (∀ v x, (Sc v).isSome → I v = some x → 0 ≤ x ∧ x < cats v) →
        ∃ (A : Finset VarSet) (v : F) (x : XR), (∀ J, J ∈ A ↔ J ∈ C ∧ Agrees Sc I J) ∧ N.value I S = some v ∧ Within ((8 * K + 5) * ε * T) (val v) x ∧ IsLogProb x ∧ unlog x = ∑ J ∈ A, P J ∧ absVal x ≤ L * T := by
  obtain ⟨v0, hv0⟩ := List.exists_mem_of_ne_nil _ hne
  have hv0s := (hkeys.2 v0).1 hv0
  obtain ⟨w0, hw0⟩ := Option.isSome_iff_exists.1 hv0s
  have hcpos : ∀ v ∈ keys, 0 < cats v := by
    intro v hv
    obtain ⟨w, hw⟩ := Option.isSome_iff_exists.1 ((hkeys.2 v).1 hv)
    exact (hok v w hw).2.2
  have hDm : D.length ≤ m := by
    have := hm v0 hv0
    have := hcpos v0 hv0
    omega
  obtain ⟨hsc, hgood, hsome⟩ := learned_float hg h D.length cats hok le_rfl
  set M := exactNet N D.length cats with hM
  have hch : M.ch = N.ch := funext (exactNet_ch N D.length cats)
  have hcomp : IsComplete M S := by
    intro n hn cs w hk
    have := (hgood n (by rw [← hch]; exact hn)).2
    unfold GoodNode at this
    rw [← hM, hk] at this
    exact this.1
  have hdec : IsDecomposable M S := by
    intro n hn cs hk
    have := (hgood n (by rw [← hch]; exact hn)).2
    unfold GoodNode at this
    rw [← hM, hk] at this
    exact this
  have hdw : DistWeights M S := by
    intro n hn cs w hk
    have := (hgood n (by rw [← hch]; exact hn)).2
    unfold GoodNode at this
    rw [← hM, hk] at this
    exact this.2
  have hdl : DiscreteLeaves M S (catDom cats) := by
    intro n l hn hk
    have := (hgood n (by rw [← hch]; exact hn)).2
    unfold GoodNode at this
    rw [← hM, hk] at this
    exact this le_rfl
  have hrank' : ∀ u, ∀ c ∈ M.ch u, rank c < rank u := by rw [hch]; exact hrank
  have hac : Acyclic M.ch := ⟨rank, fun u c hc => hrank' u c hc⟩
  have hacN : Acyclic N.ch := by rw [← hch]; exact hac
  have hscN : ∀ v, InScope N S v → InScope M S v := by
    rintro v ⟨i, l, hi, hk, hv⟩
    have := (hgood i hi).1
    rw [hk] at this
    obtain ⟨l', h1, _, h2⟩ := exact_leaf this
    exact ⟨i, l', by rw [hch]; exact hi, h1, by rw [h2, hv]⟩
  have hsize : scopeSize M S = keys.length := by
    have : {v | InScope M S v} = (keys.toFinset : Set Int) := by
      ext v
      simp only [Set.mem_setOf_eq, List.coe_toFinset]
      rw [hsc, hkeys.2]
    rw [scopeSize, this, Set.ncard_coe_finset, List.toFinset_card_of_nodup hkeys.1]
  have hempty : InDomain M S (fun v => (catDom cats v : Set Int)) VarSet.empty := by intro v _ x hx; cases hx
  obtain ⟨x0, C, f, _, _, hC, hfC, hx0, hone⟩ := C06_value_marginal M S (catDom cats) VarSet.empty hac hcomp hdec hdw hdl hempty
  have hfull : ∀ J, J ∈ C ↔ FullInstance Sc cats J := by
    intro J
    rw [hC]
    unfold Completion FullInstance
    refine forall_congr' fun v => ?_
    rw [hsc]
    by_cases hv : (Sc v).isSome
    · simp only [hv, forall_true_left, if_true, catDom, Finset.mem_Ico, not_true, IsEmpty.forall_iff, and_true, reduceCtorEq, implies_true, VarSet.empty]
      constructor
      · rintro ⟨x, h, e⟩; exact ⟨x, e, h⟩
      · rintro ⟨x, e, h⟩; exact ⟨x, h, e⟩
    · simp [hv, VarSet.empty]
  refine ⟨C, fun J => unlog (f J), hfull, fun J hJ => ?_, ?_, ?_⟩
  · have hp := prob_positive (I := J) hac hdw (fun n l hn hk => by
      have hex := (hgood n (by rw [← hch]; exact hn)).1
      rw [← hM, hk] at hex
      refine exact_leaf_value hex J fun x hx => ?_
      have hin : (Sc (leafVar l)).isSome := (hsc _).1 ⟨n, l, hn, hk, rfl⟩
      have hJv := (hfull J).1 hJ (leafVar l)
      rw [if_pos hin] at hJv
      obtain ⟨y, e, hy⟩ := hJv
      rw [hx] at e
      cases e
      exact hy) S Relation.ReflTransGen.refl
    unfold Net.prob at hp
    rw [(hfC J hJ).1] at hp
    exact hp
  · rw [← hx0, hone (fun _ _ => rfl)]
    simp [unlog]
  · intro I hI
    set I' : VarSet := fun v => if (Sc v).isSome then I v else none with hI'
    have hII : ∀ v, InScope N S v → I v = I' v := by
      intro v hv
      have := (hsc v).1 (hscN v hv)
      simp [hI', this]
    have hdom : InDomain M S (fun v => (catDom cats v : Set Int)) I' := by
      intro v hv x hx
      have hs := (hsc v).1 hv
      simp only [hI', hs, if_true] at hx
      have := hI v x hs hx
      simp [catDom, this.1, this.2]
    have hB4 : 1 ≤ B := by
      have h1 : 0 ≤ Real.log m := Real.log_natCast_nonneg m
      have h2 : 0 ≤ Real.log K := Real.log_natCast_nonneg K
      have h3 : 0 ≤ L * ((T : ℝ) + 1) := mul_nonneg (by rw [hL]; linarith) (by positivity)
      have h4 : (1 : ℝ) ≤ K := by exact_mod_cast hK1
      rw [hB]; linarith
    have hε2 : 2 * u ≤ ε := by nlinarith
    have hstores : ∀ n, Reach M.ch S n → StoresNode val K L ε (StoresLeaf val I' L ε) (N.kind n) (M.kind n) := by
      intro n hn
      rw [hL]
      refine exact_storesNode hZ hu2 hε2 (hgood n (by rw [← hch]; exact hn)).1 hDm hmZ hK1 ?_ I' ?_
      · intro cs w hk
        refine ⟨?_, hK n (by rw [← hch]; exact hn) cs w hk⟩
        rintro rfl
        have := (hgood n (by rw [← hch]; exact hn)).1
        rw [hk] at this
        obtain ⟨r, _, hr1, _, hr2⟩ := exact_sum this
        have : r = [] := by simpa using hr1
        rw [this] at hr2
        simp at hr2
      · intro l hk
        have hin : (Sc (leafVar l)).isSome := (hsc _).1 (hscN _ ⟨n, l, by rw [← hch]; exact hn, hk, rfl⟩)
        refine ⟨hm _ ((hkeys.2 _).2 hin), fun x hx => hI _ x hin ?_⟩
        simpa [hI', hin] using hx
    obtain ⟨v, x, A, f', e1, e2, e3, e4, e5, e6⟩ := C99_standard N M S I' (catDom cats) K T L u η Ω B ε rank hF hu hη hrank' hcomp hdec hdw.nonneg hdl hdom
      (fun n hn => hsome ⟨v0, hv0s⟩ n (by rw [← hch]; exact hn)) (fun n => by rw [hch]) (by rw [hL]; linarith [Real.log_natCast_nonneg m]) hK1 hstores (by rw [hsize]; exact hT) hB hε hΩ hsmall
    refine ⟨A, v, x, fun J => ?_, ?_, e2, e2.isLogProb.2, ?_, e6⟩
    · rw [e3, hC]
      unfold Completion Agrees
      rw [← forall_and]
      refine forall_congr' fun w => ?_
      rw [hsc]
      by_cases hw : (Sc w).isSome
      · simp only [hw, forall_true_left, not_true, IsEmpty.forall_iff, and_true, VarSet.empty, reduceCtorEq, implies_true, hI', if_true]
      · simp [hw, hI', VarSet.empty]
    · rw [(C78_scope_only N S I I' hacN hII).1]
      exact e1
    · rw [e5]
      refine Finset.sum_congr rfl fun J hJ => ?_
      have hJC : J ∈ C := by
        rw [hC]
        intro w
        have := (e3 J).1 hJ w
        rw [hsc] at this ⊢
        by_cases hw : (Sc w).isSome
        · simp only [hw, forall_true_left, not_true, IsEmpty.forall_iff, and_true, VarSet.empty, reduceCtorEq, implies_true] at this ⊢
          exact this.1
        · simp only [hw, hI', VarSet.empty] at this ⊢
          simpa using this
      have h1 := (e4 J hJ).1
      have h2 := (hfC J hJC).1
      rw [h1] at h2
      rw [Option.some.inj h2]

/-- C120. The probabilities that a learned network gives to the complete instances add up to one up to the factor `e^δ`, `δ = (8K + 5)·ε·T`. -/
theorem C120_total {N : Net ι F} {g k : Int} (hg : g ≤ 0) {eps : F} {mp : Int} {Sc : VarScope} {D : List VarSet} {S : ι} (h : Learned N g k eps mp Sc D S) (cats : Int → Int) (hok : ScopeOk cats Sc)
    (keys : List Int) (hkeys : Sc.Order keys) (hne : keys ≠ []) (rank : ι → ℕ) (hrank : ∀ u, ∀ c ∈ N.ch u, rank c < rank u) (K m Z T : ℕ) (u η Ω L B ε : ℝ) (hF : StdFloat val u η Ω) (hZ : IntFloat val u Z)
    (hu : 0 ≤ u) (hu2 : u ≤ 1 / 2) (hη : 0 ≤ η) (hK1 : 1 ≤ K) (hK : ∀ n, Reach N.ch S n → ∀ cs w, N.kind n = .sum cs w → cs.length ≤ K)
    (hm : ∀ v ∈ keys, D.length + cats v ≤ m) (hmZ : m ≤ Z) (hT : T = keys.length * (2 * rank S + 1)) (hL : L = Real.log m + Real.log K) (hB : B = L * (T + 1) + K + 4)
    (hε : 2 * u * B + η ≤ ε) (hΩ : 2 * B ≤ Ω) (hsmall : (8 * K + 5) * ε * T ≤ 1) :
    ∃ (C : Finset VarSet) (f : VarSet → F), (∀ J, J ∈ C ↔ FullInstance Sc cats J) ∧ (∀ J ∈ C, N.value J S = some (f J)) ∧
      Real.exp (-((8 * K + 5) * ε * T)) ≤ ∑ J ∈ C, unlog (val (f J)) ∧ ∑ J ∈ C, unlog (val (f J)) ≤ Real.exp ((8 * K + 5) * ε * T) := by
  obtain ⟨C, P, hC, hP, hsum, hval⟩ := C120_value hg h cats hok keys hkeys hne rank hrank K m Z T u η Ω L B ε hF hZ hu hu2 hη hK1 hK hm hmZ hT hL hB hε hΩ hsmall
  have hone : ∀ J, ∃ v, J ∈ C → N.value J S = some v ∧ unlog (val v) ≤ Real.exp ((8 * K + 5) * ε * T) * P J ∧ P J ≤ Real.exp ((8 * K + 5) * ε * T) * unlog (val v) := by
    intro J
    by_cases hJ : J ∈ C
    · have hf := (hC J).1 hJ
      obtain ⟨A, v, x, hA, hv, hw, hx, hu, _⟩ := hval J (by
        intro w y hw hy
        have := hf w
        rw [if_pos hw] at this
        obtain ⟨z, e, hz⟩ := this
        rw [hy] at e
        cases e
        exact hz)
      have hAJ : A = {J} := by
        ext J'
        rw [hA, Finset.mem_singleton]
        constructor
        · rintro ⟨h1, h2⟩
          funext w
          have a := hf w
          have b := (hC J').1 h1 w
          by_cases hw : (Sc w).isSome
          · rw [if_pos hw] at a
            obtain ⟨z, e, _⟩ := a
            rw [e, h2 w z hw e]
          · rw [if_neg hw] at a b
            rw [a, b]
        · rintro rfl
          exact ⟨hJ, fun w z _ e => e⟩
      rw [hAJ, Finset.sum_singleton] at hu
      refine ⟨v, fun _ => ⟨hv, ?_⟩⟩
      rw [← hu]
      exact close_unlog hw
    · exact ⟨ofInt 0, fun h => absurd h hJ⟩
  choose f hf using hone
  refine ⟨C, f, hC, fun J hJ => (hf J hJ).1, ?_, ?_⟩
  · have h1 : ∑ J ∈ C, P J ≤ ∑ J ∈ C, Real.exp ((8 * K + 5) * ε * T) * unlog (val (f J)) := Finset.sum_le_sum fun J hJ => (hf J hJ).2.2
    rw [hsum, ← Finset.mul_sum] at h1
    rw [Real.exp_neg, inv_le_iff_one_le_mul₀ (Real.exp_pos _), mul_comm]
    exact h1
  · have h1 : ∑ J ∈ C, unlog (val (f J)) ≤ ∑ J ∈ C, Real.exp ((8 * K + 5) * ε * T) * P J := Finset.sum_le_sum fun J hJ => (hf J hJ).2.1
    rwa [← Finset.mul_sum, hsum, mul_one] at h1

/-! ### The learned network of `Verif.Props.Gens` in fixed point arithmetic -/

namespace GensExample

theorem clustersOf (hti : ∀ v : Int, toInt (ofInt v : F) = v) (eps : F) (mp : Int) : Clustered 2 eps mp [d0, d1] [[d0], [d1]] := by
  obtain ⟨o, ho, h⟩ := clusters (.fin 0) mp
  rw [if_pos (by omega)] at h
  obtain ⟨hne, _⟩ := h
  have hs : SameVars [d0, d1] := by
    intro x hx y hy k
    simp only [List.mem_cons, List.not_mem_nil, or_false] at hx hy
    rcases hx with rfl | rfl <;> rcases hy with rfl | rfl <;> by_cases h0 : k = 0 <;> by_cases h1 : k = 1 <;> simp [d0, d1, VarSet.set, VarSet.empty, h0, h1]
  obtain ⟨M, Sc, C, h1, h2, h3, h4, _⟩ := C39_groups (F := F) (k := 2) (G := [0, 1]) (by simp) ho hs (by intro x _ c v _; exact hti v) rfl (by decide)
  have hC : C = [[d0], [d1]] := by
    have a0 := h4 0 (by omega)
    have a1 := h4 1 (by omega)
    match C, h3, a0, a1 with
    | [x, y], _, a0, a1 =>
      simp at a0 a1
      rw [a0, a1]
  refine ⟨o, ho, ?_⟩
  rw [if_pos (by omega)]
  refine ⟨hne, fun _ M => if M.length = 2 then some [0, 1] else none, ?_, ?_⟩
  · intro M G h
    dsimp only at h
    split at h
    · rename_i hM; cases h; rw [hM]; rfl
    · cases h
  · unfold kMeansDataI
    rw [h1]
    simp only [Option.bind_some]
    rw [if_pos (show M.length = 2 from (dataToMatrix_length h1).1), Option.bind_some, ← hC]
    exact h2

theorem counting_some (v : Int) (c : List Int) : ∃ l : Leaf F, newCountingMultinomial (fun _ => 0) v c = some l := by
  unfold newCountingMultinomial withMode
  split
  split
  · rename_i miv _ h
    rw [List.getElem?_eq_getElem (by show 0 < _; omega)]
    exact ⟨_, rfl⟩
  · exact ⟨_, rfl⟩

/-- The height of a node of the example. -/
def height : Fin 7 → ℕ := ![2, 1, 1, 0, 0, 0, 0]

/-- There is a network that `Learn` can return for these instances, whatever the arithmetic: a sum over two products of two leaves. -/
theorem learnedOf (hti : ∀ v : Int, toInt (ofInt v : F) = v) (eps : F) (mp : Int) :
    ∃ N : Net (Fin 7) F, Learned N 0 2 eps mp scope [d0, d1] 0 ∧ (∀ u, ∀ c ∈ N.ch u, height c < height u) ∧ (∀ n cs w, N.kind n = .sum cs w → cs.length ≤ 2) ∧
      TreeBelow N.ch 0 ∧ (∀ n cs w, N.kind n = .sum cs w → cs ≠ []) := by
  have hrand : ∀ n, 0 < n → (fun _ => 0 : Nat → Nat) n < n := fun n hn => hn
  obtain ⟨a, ha⟩ := counting_some (F := F) 0 [1, 0]
  obtain ⟨b, hb⟩ := counting_some (F := F) 1 [0, 1]
  obtain ⟨c, hc⟩ := counting_some (F := F) 0 [0, 1]
  obtain ⟨d, hd⟩ := counting_some (F := F) 1 [1, 0]
  let w : F := div (ofInt 1) (ofInt 2)
  let N : Net (Fin 7) F := ⟨![.sum [1, 2] [w, w], .product [3, 4], .product [5, 6], .leaf a, .leaf b, .leaf c, .leaf d]⟩
  have leafOf : ∀ (v : Variable) (D : List VarSet) (counts : List Int) (l : Leaf F) (u : Fin 7), countValues v D = some counts →
      newCountingMultinomial (fun _ => 0) v.varid counts = some l → N.kind u = .leaf l → IsUnivariate N 0 v D u := by
    intro v D counts l u h1 h2 h3
    unfold IsUnivariate
    rw [if_pos le_rfl]
    exact ⟨fun _ => 0, counts, l, hrand, h1, h2, h3⟩
  have factor : ∀ (D : List VarSet) (u x y : Fin 7), D.length = 1 → N.kind u = .product [x, y] → IsUnivariate N 0 ⟨0, 2⟩ D x → IsUnivariate N 0 ⟨1, 2⟩ D y →
      Learned N 0 2 eps mp scope D u := by
    intro D u x y hD hu h0 h1
    refine .factorized [0, 1] [[1, 0]] scope_order (by simp) (sets D) (by simp) (Or.inl ⟨by omega, by omega⟩) ⟨[0, 1], [x, y], scope_order, rfl, hu, ?_⟩
    intro i k c hk hc
    match i, hk, hc with
    | 0, hk, hc =>
      simp at hk hc; subst hk; subst hc
      exact ⟨⟨0, 2⟩, rfl, h0⟩
    | 1, hk, hc =>
      simp at hk hc; subst hk; subst hc
      exact ⟨⟨1, 2⟩, rfl, h1⟩
    | i + 2, hk, hc => simp at hk
  have l1 : Learned N 0 2 eps mp scope [d0] 1 := factor [d0] 1 3 4 rfl rfl (leafOf _ _ [1, 0] a 3 (by decide) ha rfl) (leafOf _ _ [0, 1] b 4 (by decide) hb rfl)
  have l2 : Learned N 0 2 eps mp scope [d1] 2 := factor [d1] 2 5 6 rfl rfl (leafOf _ _ [0, 1] c 5 (by decide) hc rfl) (leafOf _ _ [1, 0] d 6 (by decide) hd rfl)
  refine ⟨N, ?_, ?_, ?_, ?_, ?_⟩
  · refine .sum [0, 1] [[1, 0]] [[d0], [d1]] (fun _ => [0, 1]) [1, 2] [(1, w), (2, w)] scope_order (by simp) (sets _) (by simp) (clustersOf hti eps mp) (by simp) rfl
      (fun _ => scope_order) ?_ (List.Perm.refl _) rfl
    intro i d c hd hc
    rw [reflectScope_eq scope_order]
    match i, hd, hc with
    | 0, hd, hc =>
      simp at hd hc; subst hd; subst hc
      exact l1
    | 1, hd, hc =>
      simp at hd hc; subst hd; subst hc
      exact l2
    | i + 2, hd, hc => simp at hd
  · intro u c hc
    have : c ∈ N.ch u := hc
    fin_cases u <;> simp [Net.ch, N] at this <;> (try rcases this with rfl | rfl) <;> decide
  · intro n cs w hk
    fin_cases n <;> simp [N] at hk
    rw [← hk.1]
    rfl
  · refine tree_of_parent 0 ![0, 0, 0, 1, 1, 2, 2] ?_
    intro u c hc
    have : c ∈ N.ch u := hc
    fin_cases u <;> simp [Net.ch, N] at this <;> (try rcases this with rfl | rfl) <;> rfl
  · intro n cs w hk
    fin_cases n <;> simp [N] at hk
    rw [← hk.1]
    simp

theorem fixed_toInt (v : Int) : toInt (ofInt v : Fixed) = v := by
  show XR.toInt (.fin v) = v
  simp [XR.toInt]

theorem fixed_std (Ω : ℝ) : StdFloat Fixed.get (1 / 2 ^ 17) (1 / 2 ^ 21) Ω := by
  have h := Fixed.std Ω
  have weaken : ∀ {a : ℝ} {e : XR}, (∃ z, e = .fin z ∧ |z - a| ≤ 0 * |a| + 1 / 2 ^ 21) → ∃ z, e = .fin z ∧ |z - a| ≤ 1 / 2 ^ 17 * |a| + 1 / 2 ^ 21 := by
    rintro a e ⟨z, h1, h2⟩
    have : (0 : ℝ) ≤ 1 / 2 ^ 17 * |a| := by positivity
    exact ⟨z, h1, by linarith⟩
  refine ⟨h.zero, h.ninf, h.lt, h.isInf, fun a b x y h1 h2 h3 => weaken (h.add a b x y h1 h2 h3), h.add_left, h.add_right, fun a b x y h1 h2 h3 => weaken (h.sub a b x y h1 h2 h3), h.sub_left, fun a x h1 h2 => ?_,
    h.exp_ninf, fun a x h1 h2 h3 => weaken (h.log a x h1 h2 h3), h.log_zero⟩
  obtain ⟨z, h3, h4⟩ := h.exp a x h1 h2
  refine ⟨z, h3, ?_⟩
  have : (0 : ℝ) ≤ 1 / 2 ^ 17 * Real.exp x := by positivity
  linarith

theorem fixed_int : IntFloat Fixed.get (1 / 2 ^ 17) 4 where
  ofInt n _ := rfl
  add a b m n ha hb _ := by
    show (Fixed.fl (XR.add a.get b.get)).get = _
    rw [ha, hb]
    show XR.fin _ = _
    have e : ((m : ℝ) + n) * 2 ^ 20 = (((m + n) * 2 ^ 20 : Int) : ℝ) := by push_cast; ring
    rw [e, round_intCast]
    congr 1
    push_cast
    field_simp
    norm_num
  div a b m n ha hb hmn hn hZ := by
    obtain ⟨z, hz, he⟩ := Fixed.fl_fin ((m : ℝ) / n)
    refine ⟨z, ?_, ?_⟩
    · show (Fixed.fl (XR.div a.get b.get)).get = _
      rw [ha, hb, XR.div_fin (by exact_mod_cast hn.ne')]
      exact hz
    · by_cases hm : m = 0
      · subst hm
        have : (Fixed.fl (.fin 0)).get = .fin 0 := by simp [Fixed.fl]
        simp only [Nat.cast_zero, zero_div] at hz ⊢
        rw [this] at hz
        cases hz
        simp
      · have h1 : (1 : ℝ) ≤ m := by exact_mod_cast Nat.one_le_iff_ne_zero.2 hm
        have h2 : (n : ℝ) ≤ 4 := by exact_mod_cast hZ
        have h3 : (0 : ℝ) < n := by exact_mod_cast hn
        have h4 : (1 : ℝ) / 4 ≤ m / n := by rw [div_le_div_iff₀ (by norm_num) h3]; linarith
        calc _ ≤ (1 : ℝ) / 2 ^ 21 := he
          _ ≤ 1 / 2 ^ 17 * (1 / 4) := by norm_num
          _ ≤ _ := by gcongr

example : ∃ N : Net (Fin 7) Fixed, ∃ L B ε : ℝ, Learned N 0 2 ⟨.fin 0⟩ 1 scope [d0, d1] 0 ∧ ScopeOk (fun _ => 2) scope ∧ scope.Order [0, 1] ∧ (∀ u, ∀ c ∈ N.ch u, height c < height u) ∧
    StdFloat Fixed.get (1 / 2 ^ 17) (1 / 2 ^ 21) 100 ∧ IntFloat Fixed.get (1 / 2 ^ 17) 4 ∧ (∀ n, Reach N.ch 0 n → ∀ cs w, N.kind n = .sum cs w → cs.length ≤ 2) ∧
    (∀ v ∈ ([0, 1] : List Int), (([d0, d1] : List VarSet).length : Int) + (fun _ => 2 : Int → Int) v ≤ ((4 : ℕ) : Int)) ∧ 10 = ([0, 1] : List Int).length * (2 * height 0 + 1) ∧
    L = Real.log (4 : ℕ) + Real.log (2 : ℕ) ∧ B = L * ((10 : ℕ) + 1) + (2 : ℕ) + 4 ∧ 2 * (1 / 2 ^ 17) * B + 1 / 2 ^ 21 ≤ ε ∧ 2 * B ≤ 100 ∧ (8 * (2 : ℕ) + 5) * ε * (10 : ℕ) ≤ 1 := by
  obtain ⟨N, h1, h2, h3, _⟩ := learnedOf fixed_toInt ⟨.fin 0⟩ 1
  obtain ⟨_, _, _, hok, _⟩ := learned (.fin 0) 1
  have e4 : Real.log (4 : ℕ) = 2 * Real.log 2 := by
    rw [show ((4 : ℕ) : ℝ) = 2 ^ 2 by norm_num, Real.log_pow]
    norm_num
  have hl := Real.log_two_lt_d9
  have hl0 : 0 < Real.log 2 := Real.log_pos (by norm_num)
  refine ⟨N, _, _, 1 / 2 ^ 11, h1, hok, scope_order, h2, fixed_std 100, fixed_int, fun n _ cs w hk => h3 n cs w hk, by intro v hv; show (2 : Int) + 2 ≤ 4; omega, rfl, rfl, rfl, ?_, ?_, ?_⟩
  · rw [e4]
    norm_num
    linarith
  · rw [e4]
    norm_num
    linarith
  · norm_num

end GensExample

end Gospn
