import Verif.Proofs.GradFloat
import Verif.Props.RoundMapStore
/-!
Property C131: `DeriveSPN` and `DeriveWeights` under rounding.
-/
set_option linter.unusedSectionVars false
set_option linter.unusedSimpArgs false
namespace Gospn
open Spec
variable {ι F : Type} [DecidableEq ι] [Fintype ι] [GoFloat F] {val : F → XR}

private theorem type_stores {K : ℕ} {L δ : ℝ} {P : Leaf F → Leaf XR → Prop} {N : Net ι F} {M : Net ι XR} {n : ι} (h : StoresNode val K L δ P (N.kind n) (M.kind n)) : M.type n = N.type n := by
  revert h
  unfold Net.type
  cases N.kind n <;> cases M.kind n <;> first | exact fun _ => rfl | exact fun h => absurd h id

/-- C131 (gradients). Let the arithmetic be off by at most `ε` on the range that is needed, and let `N` store the network `M` of real numbers as in C99. Call `StoreInference`, `DeriveSPN` and `DeriveWeights` in turn, each with
a new ticket, on any storage a client can reach. Where the search takes parents first and the order of `TopSortTarjan` is right, all three return, and the stored derivatives with respect to the values of the nodes and to the
weights differ from the logarithms of the exact partial derivatives of `M` by at most `(8K + 5)·ε` times the cost of the gradient at the node; an entry is minus infinity exactly if the partial derivative is zero. -/
theorem C131_gradients (N : Net ι F) (M : Net ι XR) (S : ι) (I : VarSet) (K H : ℕ) (L ε : ℝ) (cost grad : ι → ℕ) (hac : Acyclic N.ch) (hso : SiblingOrdered N.ch S) (hS : N.ch S ≠ [])
    (hne : ∀ n cs w, N.kind n = .sum cs w → cs ≠ []) (hR : RoundsOn val (L * (H + 1) + K + 4) ε) (hP : PairFloat val) (hL : Real.log K ≤ L) (hL2 : Real.log 2 ≤ L) (hK : 1 ≤ K)
    (hs : StoresNet val N S K L ε (ValueWithin val I L (2 * ε)) M) (hw : NonnegWeights M S) (hcost : Cost N S cost) (hgrad : GradCost N S cost grad) (hH : ∀ n, Reach N.ch S n → grad n ≤ H)
    (hsmall : (8 * K + 5) * ε * H ≤ 1) (hcS : 1 ≤ cost S) (isStack : Bool) (hord : GoodSearch M S isStack)
    (ops : List (StOp ι F)) (c : Client ι F) (outs : List (StOut F)) (hr : Client.new.run ops = some (c, outs)) :
    ∃ st1 st2 st3, N.storeInference S I (-1) c.s = some (some (S, c.s.tickets), st1) ∧ N.deriveSPN S st1 (-1) c.s.tickets isStack = some (c.s.tickets + 1, st2) ∧
      N.deriveWeights S st2 (-1) (c.s.tickets + 1) c.s.tickets isStack = some (c.s.tickets + 2, st3) ∧
      (∀ n, Reach N.ch S n → ∃ v y, st2.entry (c.s.tickets + 1) n 0 = some v ∧ IsLogProb y ∧ IsPartial M S (M.prob I) n (unlog y) ∧ Within ((8 * K + 5) * ε * grad n) (val v) y) ∧
      (∀ n j d, SumEdge N S n j d → ∃ v y a, st3.entry (c.s.tickets + 2) n j = some v ∧ IsLogProb y ∧ (M.weights n)[j]? = some (.fin a) ∧ IsWeightPartial M S (M.prob I) n j a (unlog y) ∧
        Within ((8 * K + 5) * ε * grad n) (val v) y) := by
  have hε := hR.eps_nonneg
  have hK1 : (1 : ℝ) ≤ K := by exact_mod_cast hK
  have hL0 : 0 ≤ L := le_trans (Real.log_nonneg hK1) hL
  have hch : M.ch = N.ch := funext hs.1
  have hac' : Acyclic M.ch := by rw [hch]; exact hac
  have hcH : (cost S : ℝ) ≤ H := by exact_mod_cast le_trans hgrad.1 (hH S Relation.ReflTransGen.refl)
  have hH1 : (1 : ℝ) ≤ H := le_trans (by exact_mod_cast hcS) hcH
  obtain ⟨A, hA⟩ : ∃ A, A = (8 * (K : ℝ) + 5) * ε := ⟨_, rfl⟩
  have hA0 : 0 ≤ A := by rw [hA]; positivity
  have hA13 : 13 * ε ≤ A := by rw [hA]; exact mul_le_mul_of_nonneg_right (by linarith) hε
  have hAH : A * H ≤ 1 := by rw [hA]; exact hsmall
  have hA1 : A ≤ 1 := by nlinarith
  have hcle := gradCost_le hac hcost hgrad
  -- the values
  have hval := value_close hac (hR.shrink (B' := L * (cost S + 1) + K + 4) (by nlinarith)) hL0 hL hK hs hcost (le_trans (by rw [← hA]; exact mul_le_mul_of_nonneg_left hcH hA0) hAH) hcS
  have hl : LeavesEval M S I := by
    intro n l hn hk
    rw [hch] at hn
    have h1 := hs.2 n hn
    rw [hk] at h1
    cases hkN : N.kind n with
    | leaf m =>
      rw [hkN] at h1
      obtain ⟨v, y, _, h3, h4, _⟩ := h1
      exact ⟨y, h3, h4.isLogProb.2⟩
    | sum _ _ => rw [hkN] at h1; exact absurd h1 id
    | product _ => rw [hkN] at h1; exact absurd h1 id
  have hwf : c.s.WF := Client.run_wf ops Storer.new_wf hr
  have hu : usedTicket c.s (-1) = c.s.tickets := by simp [usedTicket]
  rcases C04_storeInference_partial N S I hac hso hS hne ops c outs hr (-1) (Or.inl (by omega)) with ⟨h, _⟩ | ⟨st1, h1, h2, h3, h4⟩
  · obtain ⟨v, y, g1, _⟩ := hval S Relation.ReflTransGen.refl
    rw [h] at g1
    cases g1
  rw [hu] at h1 h2 h3
  obtain ⟨hwf1, htk1⟩ := storeInference_wf hwf h1 hS
  have hne1 : (c.s.tickets : Int) ≠ st1.tickets := by rw [htk1]; push_cast; omega
  have htab : st1.table c.s.tickets ≠ none := by
    intro h
    have h' : st1.tables c.s.tickets = none := h
    obtain ⟨h5, h6⟩ := h2 S Relation.ReflTransGen.refl
    rw [← h5] at h6
    exact h6 (by simp [Storer.entry, h'])
  -- the exact run
  obtain ⟨X, hX⟩ : ∃ X : ι → XR, ∀ n, X n = (M.value I n).getD (GoFloat.ofInt 0) := ⟨_, fun _ => rfl⟩
  have hXv : ∀ n, Reach M.ch S n → InferenceStored (givenStore X) 0 M S (M.prob I) := by
    intro _ _ n hn
    obtain ⟨⟨x, hx, hx1, hx2⟩, _⟩ := Net.prob_spec hac' hw hl hn
    exact ⟨x, by rw [givenStore_entry, hX, hx]; rfl, hx1, hx2⟩
  have hXs := hXv S Relation.ReflTransGen.refl
  have hut : usedTicket (givenStore X) (-1) = 1 := by simp [usedTicket, givenStore]
  have hpv := prob_isValuation hac' hw hl
  obtain ⟨sx, x1, x2, x3, x4, x5, _⟩ := C31_deriveSPN_partial M S (M.prob I) hac' hw hpv isStack hord (givenStore X) (givenStore_wf X) (-1) 0 (Or.inl (by omega)) (by rw [hut]; omega)
    (by omega) hXs
  rw [hut] at x1 x4 x5
  -- both runs as folds
  obtain ⟨f1, f2⟩ := derive_tab N S st1 hwf1 c.s.tickets hne1 htab isStack
  obtain ⟨e1, _⟩ := derive_tab M S (givenStore X) (givenStore_wf X) 0 (by simp [givenStore]) (by simp [givenStore, Storer.table]) isStack
  have horder : workOrder M.innerCh isStack S = workOrder N.innerCh isStack S := by
    refine workOrder_congr (Reach M.ch S) (fun x hx => ⟨?_, fun c hc => ?_⟩) isStack S Relation.ReflTransGen.refl
    · unfold Net.innerCh
      rw [hs.1 x]
      refine List.filter_congr fun c hc => ?_
      rw [type_stores (hs.2 c (by rw [hch] at hx; exact hx.tail hc))]
    · exact hx.tail (innerCh_sub hc).1
  have hls := workOrder_lists N.innerCh isStack S
  have hreach : ∀ s ∈ workOrder N.innerCh isStack S, Reach N.ch S s := fun s hs => innerReach_sub ((hls.2 s).1 hs)
  obtain ⟨tF, tX, t1, t2, t3⟩ := tabClose_run (B := L * (H + 1) + K + 4) hR hP (by linarith) (by nlinarith) hK (A := A) (by linarith) hL2 hs hcost hgrad hcle (H := H)
    (fun n hn => by exact_mod_cast hH n hn) (by nlinarith) (by nlinarith) (infF := fun c' => (st1.entry c.s.tickets c' 0).getD (GoFloat.ofInt 0)) (infX := X) (by
      intro n hn
      obtain ⟨v, y, g1, g2, g3, g4⟩ := hval n hn
      rw [(h2 n hn).1, g1, hX, g2]
      rw [← hA] at g3
      exact ⟨g3, g4⟩) (workOrder N.innerCh isStack S) (fun _ => 0) (fun n => if n = S then some (GoFloat.ofInt 0) else none) (fun n => if n = S then some (GoFloat.ofInt 0) else none) hreach
    (fun c => by rw [Nat.zero_add]; exact inDegree_list N S hls.1 hreach c) (by
      intro n
      by_cases hn : n = S
      · subst hn
        have hb : 0 ≤ (grad n : ℝ) - cost n - inDegree N n n := by
          have := hcle n Relation.ReflTransGen.refl
          have : ((cost n + inDegree N n n : ℕ) : ℝ) ≤ grad n := by exact_mod_cast this
          push_cast at this
          linarith
        simp only [if_true]
        have h0 : (GoFloat.ofInt 0 : XR) = .fin 0 := by simp
        rw [hR.zero, h0]
        refine ⟨?_, ?_⟩
        · show |(0 : ℝ) - 0| ≤ _
          rw [sub_self, abs_zero]
          simp only [Nat.cast_zero, add_zero]
          exact mul_nonneg hA0 hb
        · show |(0 : ℝ)| ≤ _
          rw [abs_zero]
          simp only [Nat.cast_zero, add_zero]
          exact mul_nonneg hL0 hb
      · simp only [hn, if_false])
  have hXe : (fun c => ((givenStore X).entry 0 c 0).getD (GoFloat.ofInt 0)) = X := by
    funext n
    rw [givenStore_entry]
    rfl
  rw [hXe, horder, t2, x1] at e1
  rw [t1] at f1
  obtain ⟨r, hr2, hrt⟩ := Option.map_eq_some_iff.1 f1
  obtain ⟨k1, k2, k3, k4⟩ := f2 r hr2
  obtain ⟨tk, st2⟩ := r
  simp only at k1 k2 k3 k4 hrt
  subst k1
  simp only [Option.map_some, Option.some.injEq] at e1
  have htk : ((givenStore X).tickets : Int) = 1 := by simp [givenStore]
  -- entries of the derivative table
  have hder : ∀ n, Reach N.ch S n → ∃ v y, st2.entry st1.tickets n 0 = some v ∧ sx.entry 1 n 0 = some y ∧ IsLogProb y ∧ IsPartial M S (M.prob I) n (unlog y) ∧
      Within (A * (grad n - cost n)) (val v) y ∧ absVal y ≤ L * (grad n - cost n) := by
    intro n hn
    obtain ⟨y, y1, y2, y3⟩ := x4 n (by rw [hch]; exact hn)
    have hc := t3 n
    have hXn : tX n = some y := by
      rw [← e1]
      simp only [htk]
      exact y1
    have hFn : tF n = st2.entry st1.tickets n 0 := by rw [← hrt]
    rw [hXn, hFn] at hc
    have hk := inDegree_list N S hls.1 hreach n
    have hk' : ((((workOrder N.innerCh isStack S).map fun m => (N.ch m).count n).sum : ℕ) : ℝ) ≤ inDegree N S n := by exact_mod_cast hk
    cases hv : st2.entry st1.tickets n 0 with
    | none => rw [hv] at hc; exact absurd hc id
    | some v =>
      rw [hv] at hc
      obtain ⟨c1, c2⟩ := hc
      simp only [Nat.zero_add] at c1 c2
      refine ⟨v, y, rfl, y1, y2, y3, c1.mono (mul_le_mul_of_nonneg_left ?_ hA0), le_trans c2 (mul_le_mul_of_nonneg_left ?_ hL0)⟩ <;> linarith
  have htk2 : (st1.tickets : Int) = c.s.tickets + 1 := by rw [htk1]
  have hu2 : usedTicket st2 (-1) = c.s.tickets + 2 := by
    simp only [usedTicket, k3, htk1]
    push_cast
    norm_num
    ring
  obtain ⟨st3, w1, _, w3, _⟩ := C32_deriveWeights N S isStack st2 k2 (-1) (c.s.tickets + 1) c.s.tickets (Or.inl (by omega)) (by rw [hu2]; omega) (by rw [hu2]; omega)
  rw [hu2] at w1 w3
  rw [htk2] at hr2 hder k4
  refine ⟨st1, st2, st3, h1, hr2, w1, ?_, ?_⟩
  · intro n hn
    obtain ⟨v, y, v1, _, v3, v4, v5, _⟩ := hder n hn
    refine ⟨v, y, v1, v3, v4, v5.mono ?_⟩
    rw [← hA]
    refine mul_le_mul_of_nonneg_left ?_ hA0
    have : (0 : ℝ) ≤ cost n := Nat.cast_nonneg _
    linarith
  · intro n j d hsum
    obtain ⟨hn, cs, w, hk, hj⟩ := hsum
    have hd : d ∈ cs := List.mem_of_getElem? hj
    have hdn : d ∈ N.ch n := by simpa [Net.ch, hk] using hd
    have hrd := hn.tail hdn
    obtain ⟨v, y, v1, v2, v3, v4, v5, v6⟩ := hder n hn
    obtain ⟨z, x, g1, g2, g3, g4⟩ := hval d hrd
    rw [← hA] at g3
    have hkM : ∃ ds q, M.kind n = .sum ds q ∧ ds[j]? = some d := by
      have h5 := hs.2 n hn
      rw [hk] at h5
      cases hkM : M.kind n with
      | sum ds q =>
        rw [hkM] at h5
        exact ⟨ds, q, rfl, by rw [← h5.1]; exact hj⟩
      | product _ => rw [hkM] at h5; exact absurd h5 id
      | leaf _ => rw [hkM] at h5; exact absurd h5 id
    have hderX : DerivativesStored sx 1 M S (M.prob I) := fun n hn => x4 n hn
    have hinfX : InferenceStored sx 0 M S (M.prob I) := by
      intro n hn
      rw [x5 0 (by omega)]
      exact hXs n hn
    obtain ⟨p1, a, p2, p3⟩ := weight_partial hac' hw hpv hinfX hderX (n := n) (j := j) (c := d) ⟨by rw [hch]; exact hn, hkM⟩
    have hXd : X d = x := by rw [hX, g2]; rfl
    rw [x5 0 (by omega), givenStore_entry, v2] at p1 p3
    simp only [Option.getD_some, hXd] at p1 p3
    have hent := w3 n j d ⟨hn, cs, w, hk, hj⟩
    rw [k4 c.s.tickets (by omega), (h2 d hrd).1, g1, v1] at hent
    simp only [Option.getD_some] at hent
    refine ⟨_, _, a, hent, p1, p2, p3, ?_⟩
    rw [← hA]
    have hcd : (cost d : ℝ) + 1 ≤ cost n := by
      have := hcost n hn
      rw [hk] at this
      exact_mod_cast this d hd
    have hgn : (cost n : ℝ) ≤ grad n := by exact_mod_cast le_trans (Nat.le_add_right _ _) (hcle n hn)
    have hgH : (grad n : ℝ) ≤ H := by exact_mod_cast hH n hn
    have hcd0 : (0 : ℝ) ≤ cost d := Nat.cast_nonneg _
    have m1 : A * cost d ≤ A * H := mul_le_mul_of_nonneg_left (by linarith) hA0
    have m2 : L * cost d ≤ L * H := mul_le_mul_of_nonneg_left (by linarith) hL0
    have m3 : A * (grad n - cost n) ≤ A * H := mul_le_mul_of_nonneg_left (by linarith) hA0
    have m4 : L * (grad n - cost n) ≤ L * H := mul_le_mul_of_nonneg_left (by linarith) hL0
    rcases g3.cases with ⟨q1, q2⟩ | ⟨α, β, q1, q2, q3⟩
    · rw [q2, hR.add_left z v q1 v5.isLogProb.1]
      rcases IsLogProb.cases v3 with e | ⟨β', e⟩ <;> rw [e] <;> trivial
    · rcases v5.cases with ⟨q4, q5⟩ | ⟨α', β', q4, q5, q6⟩
      · rw [q2, q5, hR.add_right z v g3.isLogProb.1 q4]
        trivial
      · have b1 : |α| ≤ absVal x + A * cost d := by
          have := within_absVal g3 (mul_nonneg hA0 hcd0)
          rw [q1] at this
          exact this
        have b2 : |α'| ≤ absVal y + A * (grad n - cost n) := by
          have := within_absVal v5 (mul_nonneg hA0 (by linarith))
          rw [q4] at this
          exact this
        obtain ⟨ζ, z1, z2⟩ := hR.add z v α α' q1 q4 (by
          show |α| ≤ _
          have : absVal x ≤ L * cost d := g4
          nlinarith) (by
          show |α'| ≤ _
          nlinarith)
        rw [z1, q2, q5]
        show |ζ - (β + β')| ≤ _
        have s1 : ζ - (β + β') = (ζ - (α + α')) + (α - β) + (α' - β') := by ring
        rw [s1]
        have s2 := abs_add_le ((ζ - (α + α')) + (α - β)) (α' - β')
        have s3 := abs_add_le (ζ - (α + α')) (α - β)
        have s4 : A * (cost d + 1) ≤ A * cost n := mul_le_mul_of_nonneg_left hcd hA0
        nlinarith

/-- C131 (how large the cost of the gradient is). If no node has more than `D` edges into it, then `cost S + h·D` is enough, where `h` is the height of the network. -/
theorem C131_cost (N : Net ι F) (S : ι) (cost rank : ι → ℕ) (hrank : ∀ u, ∀ c ∈ N.ch u, rank c < rank u) (D : ℕ) (hD : ∀ n, Reach N.ch S n → inDegree N S n ≤ D) :
    GradCost N S cost (fun n => cost S + (rank S - rank n) * D) ∧ ∀ n, cost S + (rank S - rank n) * D ≤ cost S + rank S * D := by
  have hle : ∀ m, Reach N.ch S m → rank m ≤ rank S := by
    intro m hm
    induction hm with
    | refl => exact le_rfl
    | tail _ hc ih =>
      have := hrank _ _ hc
      omega
  refine ⟨⟨Nat.le_add_right _ _, fun m hm c hc => ?_⟩, fun n => ?_⟩
  · have h1 := hrank m c hc
    have h2 := hle m hm
    have h3 := hD c (hm.tail hc)
    have h4 : rank S - rank m + 1 ≤ rank S - rank c := by omega
    have h5 := Nat.mul_le_mul_right D h4
    rw [Nat.add_mul, Nat.one_mul] at h5
    beta_reduce
    omega
  · have := Nat.mul_le_mul_right D (Nat.sub_le (rank S) (rank n))
    omega

/-- C131 (the standard model of floating point arithmetic). Under the conditions of `C99_standard`, with at most `D` edges into any node: put `H = s·(2h + 1) + h·D` for `s` variables and height `h`. As long as
`(8K + 5)·ε·H ≤ 1`, every stored derivative, with respect to a node or to a weight, is within `(8K + 5)·ε·H` of the logarithm of the exact partial derivative. -/
theorem C131_standard (N : Net ι F) (M : Net ι XR) (S : ι) (I : VarSet) (K D H : ℕ) (L u η Ω B ε : ℝ) (rank : ι → ℕ) (hF : StdFloat val u η Ω) (hP : PairFloat val) (hu : 0 ≤ u) (hη : 0 ≤ η)
    (hrank : ∀ u, ∀ c ∈ M.ch u, rank c < rank u) (hdec : IsDecomposable M S) (hw : NonnegWeights M S) (hsc : ∀ n, Reach M.ch S n → ∃ v, InScope M n v)
    (hch : ∀ n, M.ch n = N.ch n) (hL : Real.log K ≤ L) (hL2 : Real.log 2 ≤ L) (hK : 1 ≤ K) (hs : ∀ n, Reach M.ch S n → StoresNode val K L ε (StoresLeaf val I L ε) (N.kind n) (M.kind n))
    (hD : ∀ n, Reach M.ch S n → inDegree M S n ≤ D) (hH : H = scopeSize M S * (2 * rank S + 1) + rank S * D) (hB : B = L * (H + 1) + K + 4) (hε : 2 * u * B + η ≤ ε) (hΩ : 2 * B ≤ Ω)
    (hsmall : (8 * K + 5) * ε * H ≤ 1) (hso : SiblingOrdered N.ch S) (hS : N.ch S ≠ []) (hne : ∀ n cs w, N.kind n = .sum cs w → cs ≠ []) (isStack : Bool) (hord : GoodSearch M S isStack)
    (ops : List (StOp ι F)) (c : Client ι F) (outs : List (StOut F)) (hr : Client.new.run ops = some (c, outs)) :
    ∃ st1 st2 st3, N.storeInference S I (-1) c.s = some (some (S, c.s.tickets), st1) ∧ N.deriveSPN S st1 (-1) c.s.tickets isStack = some (c.s.tickets + 1, st2) ∧
      N.deriveWeights S st2 (-1) (c.s.tickets + 1) c.s.tickets isStack = some (c.s.tickets + 2, st3) ∧
      (∀ n, Reach N.ch S n → ∃ v y, st2.entry (c.s.tickets + 1) n 0 = some v ∧ IsLogProb y ∧ IsPartial M S (M.prob I) n (unlog y) ∧ Within ((8 * K + 5) * ε * H) (val v) y) ∧
      (∀ n j d, SumEdge N S n j d → ∃ v y a, st3.entry (c.s.tickets + 2) n j = some v ∧ IsLogProb y ∧ (M.weights n)[j]? = some (.fin a) ∧ IsWeightPartial M S (M.prob I) n j a (unlog y) ∧
        Within ((8 * K + 5) * ε * H) (val v) y) := by
  have hK1 : (1 : ℝ) ≤ K := by exact_mod_cast hK
  have hL0 : 0 ≤ L := le_trans (Real.log_nonneg hK1) hL
  have hH0 : (0 : ℝ) ≤ H := Nat.cast_nonneg _
  have hLH : 0 ≤ L * H := mul_nonneg hL0 hH0
  have hB5 : 5 ≤ B := by nlinarith
  have huB : 0 ≤ u * B := mul_nonneg hu (by linarith)
  have hε0 : 0 ≤ ε := by nlinarith
  have hR : RoundsOn val B ε := hF.roundsOn hu hΩ (by linarith) (by linarith) (by nlinarith) (by nlinarith)
  have hcS : 1 ≤ scopeSize M S * (2 * rank S + 1) := by
    have : 1 ≤ scopeSize M S := (Set.ncard_pos (inScope_finite M S)).2 (hsc S Relation.ReflTransGen.refl)
    nlinarith
  have hH1 : (1 : ℝ) ≤ H := by exact_mod_cast (show 1 ≤ H by omega)
  have hε1 : ε ≤ 1 := by
    have h1 : 0 ≤ ε * H := mul_nonneg hε0 hH0
    nlinarith [mul_nonneg (by linarith : (0 : ℝ) ≤ K) h1]
  have hchf : M.ch = N.ch := funext hch
  have hst : StoresNet val N S K L ε (ValueWithin val I L (2 * ε)) M := by
    refine ⟨hch, fun n hn => ?_⟩
    have hn2 := hs n (by rw [hchf]; exact hn)
    revert hn2
    cases N.kind n <;> cases M.kind n <;> try exact id
    intro h
    obtain ⟨v, y, h1, h2, h3, h4⟩ := storesLeaf_close hR hL0 hε0 (by nlinarith) h
    exact ⟨v, y, h1, h2, h3.mono (by linarith), h4⟩
  have hcost : Cost N S fun n => scopeSize M n * (2 * rank n + 1) := storesNet_cost hst (C99_cost M S rank hrank hdec hsc)
  have hac : Acyclic N.ch := ⟨rank, by rw [← hchf]; exact hrank⟩
  have hDN : ∀ n, Reach N.ch S n → inDegree N S n ≤ D := by
    intro n hn
    have := hD n (by rw [hchf]; exact hn)
    unfold inDegree at this ⊢
    rw [hchf] at this
    exact this
  obtain ⟨g1, g2⟩ := C131_cost N S (fun n => scopeSize M n * (2 * rank n + 1)) rank (by rw [← hchf]; exact hrank) D hDN
  rw [hB] at hR
  have g3 : ∀ n, scopeSize M S * (2 * rank S + 1) + (rank S - rank n) * D ≤ H := fun n => by rw [hH]; exact g2 n
  obtain ⟨st1, st2, st3, h1, h2, h3, h4, h5⟩ := C131_gradients N M S I K H L ε _ _ hac hso hS hne hR hP hL hL2 hK hst hw hcost g1 (fun n _ => g3 n) hsmall hcS isStack hord ops c outs hr
  have hm : ∀ n, (8 * (K : ℝ) + 5) * ε * ((scopeSize M S * (2 * rank S + 1) + (rank S - rank n) * D : ℕ) : ℝ) ≤ (8 * K + 5) * ε * H :=
    fun n => mul_le_mul_of_nonneg_left (by exact_mod_cast g3 n) (by positivity)
  refine ⟨st1, st2, st3, h1, h2, h3, fun n hn => ?_, fun n j d hn => ?_⟩
  · obtain ⟨v, y, k1, k2, k3, k4⟩ := h4 n hn
    exact ⟨v, y, k1, k2, k3, k4.mono (hm n)⟩
  · obtain ⟨v, y, a, k1, k2, k3, k4, k5⟩ := h5 n j d hn
    exact ⟨v, y, a, k1, k2, k3, k4, k5.mono (hm n)⟩

/-- C131 (what this means for the gradient itself). A stored logarithm within `e ≤ 1` of that of the partial derivative `d` gives `d` up to the relative error `2·e`. -/
theorem C131_relative {e : ℝ} {x y : XR} (h : Within e x y) (he : e ≤ 1) : |unlog x - unlog y| ≤ 2 * e * unlog y := by
  rcases h.cases with ⟨rfl, rfl⟩ | ⟨a, b, rfl, rfl, hab⟩
  · simp
  · simp only [unlog_fin]
    have hz : Real.exp a = Real.exp b * Real.exp (a - b) := by rw [← Real.exp_add]; congr 1; ring
    have hb := Real.abs_exp_sub_one_le (le_trans hab he)
    rw [hz, show Real.exp b * Real.exp (a - b) - Real.exp b = Real.exp b * (Real.exp (a - b) - 1) by ring, abs_mul, abs_of_pos (Real.exp_pos b)]
    have := mul_le_mul_of_nonneg_left (le_trans hb (mul_le_mul_of_nonneg_left hab (by norm_num : (0 : ℝ) ≤ 2))) (Real.exp_pos b).le
    linarith

theorem Fixed.pair : PairFloat Fixed.get where
  le _ _ := rfl
  one := by
    show XR.fin ((1 : Int) : ℝ) = _
    simp

theorem mixNet_scoped (n : Fin 7) : ∃ v, InScope mixNet n v := by
  have h1 := (mixNet_scope1 0).2 (Or.inl rfl)
  have h2 := (mixNet_scope2 0).2 (Or.inl rfl)
  fin_cases n
  · exact ⟨0, InScope.child (c := 1) (by simp [mixNet, Net.ch]) h1⟩
  · exact ⟨0, h1⟩
  · exact ⟨0, h2⟩
  all_goals exact ⟨_, (InScope.of_leaf rfl).2 rfl⟩

/-- The hypotheses of `C131_standard` hold for the stored network of C99 and partial evidence: the error is at most 21·12·2⁻¹⁹, about 0.0005. -/
example : StdFloat Fixed.get 0 (1 / 2 ^ 21) 1000 ∧ PairFloat Fixed.get ∧ (∀ u, ∀ c ∈ mixNet.ch u, (![2, 1, 1, 0, 0, 0, 0] : Fin 7 → ℕ) c < (![2, 1, 1, 0, 0, 0, 0] : Fin 7 → ℕ) u) ∧
    IsDecomposable mixNet 0 ∧ NonnegWeights mixNet 0 ∧ (∀ n, Reach mixNet.ch 0 n → ∃ v, InScope mixNet n v) ∧ (∀ n, mixNet.ch n = fixedNet.ch n) ∧ Real.log (2 : ℕ) ≤ 3 ∧
    (∀ n, Reach mixNet.ch 0 n → StoresNode Fixed.get 2 3 (1 / 2 ^ 19) (StoresLeaf Fixed.get (VarSet.single 1 0) 3 (1 / 2 ^ 19)) (fixedNet.kind n) (mixNet.kind n)) ∧
    (∀ n, Reach mixNet.ch 0 n → inDegree mixNet 0 n ≤ 1) ∧ 12 = scopeSize mixNet 0 * (2 * (![2, 1, 1, 0, 0, 0, 0] : Fin 7 → ℕ) 0 + 1) + (![2, 1, 1, 0, 0, 0, 0] : Fin 7 → ℕ) 0 * 1 ∧
    (45 : ℝ) = 3 * ((12 : ℕ) + 1) + (2 : ℕ) + 4 ∧ 2 * 0 * (45 : ℝ) + 1 / 2 ^ 21 ≤ 1 / 2 ^ 19 ∧ (8 * ((2 : ℕ) : ℝ) + 5) * (1 / 2 ^ 19) * ((12 : ℕ) : ℝ) ≤ 1 ∧
    SiblingOrdered fixedNet.ch 0 ∧ fixedNet.ch 0 ≠ [] ∧ (∀ n cs w, fixedNet.kind n = .sum cs w → cs ≠ []) ∧ GoodSearch mixNet 0 true ∧ SumEdge fixedNet 0 0 1 2 := by
  have hch : mixNet.ch = fixedNet.ch := funext fixedNet_ch
  refine ⟨Fixed.std _, Fixed.pair, fun u v h => by have := mixNet_rank u v h; omega, mixNet_decomposable, mixNet_weights.nonneg, fun n _ => mixNet_scoped n, fixedNet_ch, ?_, fun n _ => fixedNet_stores n, ?_,
    by rw [mixNet_scopeSize]; rfl, by norm_num, by norm_num, by norm_num, by rw [← hch]; exact mixNet_siblings, by rw [← hch]; decide, ?_, Or.inr ?_, Relation.ReflTransGen.refl, _, _, rfl, rfl⟩
  · have := Real.log_le_sub_one_of_pos (show (0 : ℝ) < (2 : ℕ) by norm_num)
    push_cast at this ⊢
    linarith
  · intro n hn
    clear hn
    unfold inDegree
    refine le_trans (Finset.sum_le_sum_of_subset (Finset.subset_univ _)) ?_
    have h : mixNet.ch = ![[1, 2], [3, 4], [5, 6], [], [], [], []] := by funext i; fin_cases i <;> rfl
    rw [h]
    revert n
    decide
  · intro n cs w h
    fin_cases n <;> simp [fixedNet] at h
    rw [← h.1]; simp
  · intro u _ u' _ c hc hc' hl
    fin_cases u <;> fin_cases u' <;> simp [mixNet, Net.ch] at hc hc' <;> (try rcases hc with rfl | rfl) <;> (try rcases hc' with h | h) <;>
      first | rfl | (exfalso; revert h; decide)

/-- The hypotheses of `C131_relative`. -/
example : Within (1 / 2) (.fin 1) (.fin (5 / 4)) ∧ (1 / 2 : ℝ) ≤ 1 := by
  refine ⟨?_, by norm_num⟩
  show |(1 : ℝ) - 5 / 4| ≤ 1 / 2
  norm_num [abs_le]

end Gospn
