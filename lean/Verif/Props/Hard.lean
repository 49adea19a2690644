import Verif.Proofs.Hard
import Verif.Props.Semantics
/-!
Property C36: hard derivatives count MAP passes.
-/
set_option linter.unusedSectionVars false
namespace Gospn
open Spec GoFloat

variable {ι : Type} [DecidableEq ι] [Fintype ι]

section
variable {F : Type} [GoFloat F]

/-- `DeriveHard` in terms of the table of MAP values and the choices made from it. -/
theorem deriveHard_spec (N : Net ι F) (S : ι) (I : VarSet) (pick : ι → Nat → Nat) (hac : Acyclic N.ch) (hd : IsDecomposable N S) (hl : LeavesAreLeaves N S)
    (st : Storer ι F) (hw : st.WF) (tk : Int) (ht : tk < 0 ∨ st.table tk ≠ none) (tk' : Int) (st' : Storer ι F) (h : N.deriveHard S st tk I pick = some (tk', st')) :
    ∃ (tab : ι → Option F) (choice : ι → Nat), (N.order S).foldlM (N.traceTabStep I) (fun _ => none) = some tab ∧ tk' = usedTicket st tk ∧ (st'.WF ∧ (¬ tk < 0 → ∀ k, st'.table k = st.table k)) ∧
      (∀ n cs w, OnTrace N choice S n → N.kind n = .sum cs w → choice n < cs.length ∧ traceChoice (fun c => (tab c).getD (ofInt 0)) (pick n) cs w = some (choice n)) ∧
      (∃ T, N.traceMAP S I pick = some T ∧ (∀ n, OnTrace N choice S n → N.type n = .sum → T n = some (choice n)) ∧
        ∀ n, ¬ (OnTrace N choice S n ∧ N.type n = .sum) → T n = none) ∧
      (∀ n (i : Int), (OnTrace N choice S n ∧ N.type n = .sum ∧ i = choice n) →
        st'.entry tk' n i = some (add ((if tk < 0 then none else st.entry tk n i).getD (ofInt 0)) (ofInt 1))) ∧
      (∀ n (i : Int), ¬ (OnTrace N choice S n ∧ N.type n = .sum ∧ i = choice n) → st'.entry tk' n i = if tk < 0 then none else st.entry tk n i) ∧
      (∀ k, k ≠ tk' → ∀ n i, st'.entry k n i = st.entry k n i) := by
  obtain ⟨h1, a, h2, h3, h4, h5⟩ := dpStart_spec hw ht
  have e : newIfNeg tk st = dpStart st tk := rfl
  simp only [Net.deriveHard, e, h1, h2, Option.bind_eq_some_iff, Option.map_eq_some_iff] at h
  obtain ⟨T, hT, st2, hst, heq⟩ := h
  obtain ⟨rfl, rfl⟩ : usedTicket st tk = tk' ∧ st2 = st' := by simpa using heq
  have hT' := hT
  simp only [Net.traceMAP, Option.bind_eq_some_iff, Option.map_eq_some_iff] at hT
  obtain ⟨tab, htab, P, hP, rfl⟩ := hT
  obtain ⟨p1, p2⟩ := traceLoop_spec hac hd hl hP
  have hon := onTrace_iff (fun n hn => (p1 n hn).2)
  rw [work_static _ _ _ (hardStep_eq (some a) P.1)] at hst
  have hls := workOrder_lists (N.hdCand P.1) false S
  obtain ⟨st2', g1, g2, g3⟩ := hardFold (N := N) (a := a) (T := P.1) (workOrder (N.hdCand P.1) false S) (dpStart st tk).2 hls.1 (by
    intro n _ cs w i hk hi
    by_cases hr : Reach (N.trCand (fun c => (tab c).getD (ofInt 0)) pick) S n
    · exact trIdx_lt hk ((p1 n hr).1 ▸ hi)
    · rw [p2 n hr] at hi; cases hi)
  rw [hst] at g1
  obtain rfl := Option.some.inj g1
  -- which positions are counted
  have hpos : ∀ n (i : Int), (n ∈ workOrder (N.hdCand P.1) false S ∧ N.type n = .sum ∧ (P.1 n).map Int.ofNat = some i) ↔
      (OnTrace N (fun m => (N.trIdx (fun c => (tab c).getD (ofInt 0)) pick m).getD 0) S n ∧ N.type n = .sum ∧
        i = (((N.trIdx (fun c => (tab c).getD (ofInt 0)) pick n).getD 0 : Nat) : Int)) := by
    intro n i
    rw [hls.2 n, hon n]
    constructor
    · rintro ⟨q1, q2, q3⟩
      have hr := (hdReach_iff (fun n hn => (p1 n hn).1) q2).1 q1
      refine ⟨hr, q2, ?_⟩
      rw [(p1 n hr).1] at q3
      cases hi : N.trIdx (fun c => (tab c).getD (ofInt 0)) pick n with
      | none => simp [hi] at q3
      | some j => rw [hi] at q3; simpa using q3.symm
    · rintro ⟨q1, q2, q3⟩
      refine ⟨(hdReach_iff (fun n hn => (p1 n hn).1) q2).2 q1, q2, ?_⟩
      rw [(p1 n q1).1]
      obtain ⟨j, hj⟩ := Option.ne_none_iff_exists'.1 ((p1 n q1).2 q2)
      rw [hj] at q3 ⊢; simp [q3]
  refine ⟨tab, fun m => (N.trIdx (fun c => (tab c).getD (ofInt 0)) pick m).getD 0, htab, rfl, ⟨g2.wf h3, ?_⟩, ?_, ⟨P.1, hT', ?_, ?_⟩, ?_, ?_, ?_⟩
  · intro hneg k
    have : (dpStart st tk).2 = st := by simp [dpStart, hneg]
    rw [← this]; exact congrFun g2.tables k
  · intro n cs w hn hk
    have hr := (hon n).1 hn
    obtain ⟨j, hj⟩ := Option.ne_none_iff_exists'.1 ((p1 n hr).2 (by simp [Net.type, hk]))
    refine ⟨by simpa [hj] using trIdx_lt hk hj, ?_⟩
    simp only [hj, Option.getD_some]
    simpa [Net.trIdx, hk] using hj
  · intro n hn hts
    have hr := (hon n).1 hn
    obtain ⟨j, hj⟩ := Option.ne_none_iff_exists'.1 ((p1 n hr).2 hts)
    rw [(p1 n hr).1]; simp [hj]
  · intro n hn
    by_cases hr : Reach (N.trCand (fun c => (tab c).getD (ofInt 0)) pick) S n
    · rw [(p1 n hr).1]
      have hts : N.type n ≠ .sum := fun h => hn ⟨(hon n).2 hr, h⟩
      unfold Net.trIdx
      cases hk : N.kind n with
      | sum cs w => simp [Net.type, hk] at hts
      | leaf l => rfl
      | product cs => rfl
    · exact p2 n hr
  · intro n i hpn
    rw [g2.entry_at h2, g3, if_pos ((hpos n i).2 hpn)]
    have : ((dpStart st tk).2.heap a).entry n i = (dpStart st tk).2.entry (usedTicket st tk) n i := by
      rw [(OnlyAt.refl a (dpStart st tk).2).entry_at h2]
    rw [this, h5]
  · intro n i hpn
    rw [g2.entry_at h2, g3, if_neg (fun h => hpn ((hpos n i).1 h))]
    have : ((dpStart st tk).2.heap a).entry n i = (dpStart st tk).2.entry (usedTicket st tk) n i := by
      rw [(OnlyAt.refl a (dpStart st tk).2).entry_at h2]
    rw [this, h5]
  · intro k hk n i
    rw [g2.entry h3 h2 k hk, h4 k hk]

/-- C36, bit for bit and whatever the random tie breaking: if `DeriveHard` returns, it has added 1 to one position of each sum node of a trace (all children of a product,
one child of a sum), the position `TraceMAP` returned, and changed nothing else in any table. Completeness is not needed; every childless node must be a leaf
(a node without a variable could be on the trace twice). -/
theorem C36_counts (N : Net ι F) (S : ι) (I : VarSet) (pick : ι → Nat → Nat) (hac : Acyclic N.ch) (hd : IsDecomposable N S) (hl : LeavesAreLeaves N S)
    (st : Storer ι F) (hw : st.WF) (tk : Int) (ht : tk < 0 ∨ st.table tk ≠ none) (tk' : Int) (st' : Storer ι F) (h : N.deriveHard S st tk I pick = some (tk', st')) :
    ∃ choice : ι → Nat, tk' = usedTicket st tk ∧
      (∀ n cs w, OnTrace N choice S n → N.kind n = .sum cs w → choice n < cs.length) ∧
      (∃ T, N.traceMAP S I pick = some T ∧ (∀ n, OnTrace N choice S n → N.type n = .sum → T n = some (choice n)) ∧
        ∀ n, ¬ (OnTrace N choice S n ∧ N.type n = .sum) → T n = none) ∧
      (∀ n (i : Int), (OnTrace N choice S n ∧ N.type n = .sum ∧ i = choice n) →
        st'.entry tk' n i = some (add ((if tk < 0 then none else st.entry tk n i).getD (ofInt 0)) (ofInt 1))) ∧
      (∀ n (i : Int), ¬ (OnTrace N choice S n ∧ N.type n = .sum ∧ i = choice n) → st'.entry tk' n i = if tk < 0 then none else st.entry tk n i) ∧
      (∀ k, k ≠ tk' → ∀ n i, st'.entry k n i = st.entry k n i) := by
  obtain ⟨tab, choice, _, h2, _, h4, h5, h6⟩ := deriveHard_spec N S I pick hac hd hl st hw tk ht tk' st' h
  exact ⟨choice, h2, fun n cs w hn hk => (h4 n cs w hn hk).1, h5, h6⟩

theorem Net.traceTabStep_spec {N : Net ι F} {I : VarSet} {R : ι → Option F} (hR : ∀ n, R n = N.maxStep I R n) (V : ι → Option F) (s : ι)
    (h : ∀ c ∈ N.ch s, R c = V c ∧ (R c).isSome) :
    (R s = none ∧ N.traceTabStep I V s = none) ∨ ∃ v V', R s = some v ∧ N.traceTabStep I V s = some V' ∧ V' = Function.update V s (some v) := by
  have hget : ∀ c ∈ N.ch s, R c = some ((V c).getD (ofInt 0)) := by
    intro c hc
    obtain ⟨h1, h2⟩ := h c hc
    rw [h1] at h2 ⊢
    obtain ⟨v, hv⟩ := Option.isSome_iff_exists.1 h2
    simp [hv]
  rw [hR s]
  unfold Net.maxStep Net.traceTabStep
  unfold Net.ch at hget
  cases hk : N.kind s with
  | leaf l =>
    simp only
    cases l.max I <;> simp
  | sum cs w =>
    simp only [hk] at hget ⊢
    rw [mapM_eq_some hget]
    simp only [Option.bind_some]
    cases weightedMax (cs.map fun c => (V c).getD (ofInt 0)) w <;> simp
  | product cs =>
    simp only [hk] at hget ⊢
    rw [mapM_eq_some hget]
    simp

theorem Net.traceTab_fold {N : Net ι F} {I : VarSet} (hac : Acyclic N.ch) {S : ι} (hso : SiblingOrdered N.ch S) {tab : ι → Option F}
    (h : (N.order S).foldlM (N.traceTabStep I) (fun _ => none) = some tab) : ∀ n, Reach N.ch S n → tab n = N.max I n := by
  have hol := N.order_lists S
  rcases dp_fold (ch := N.ch) (R := N.max I) id (N.traceTabStep I)
      (fun x s h => Net.traceTabStep_spec (fun n => Net.max_unfold hac I n) x s h) [] (N.order S) (fun _ => none)
      (by simpa using Net.order_childrenFirst hac hso) (by simp) with ⟨V, h1, h2, _⟩ | ⟨h1, n, hn, h2⟩
  · rw [h] at h1
    obtain rfl := Option.some.inj h1
    intro n hn
    exact (h2 n (by simpa using (hol.2 n).2 hn)).1
  · rw [h] at h1; cases h1

end

/-! ### Never a panic; the choices are maximal -/

theorem traceChoice_spec {get : ι → XR} {pick : Nat → Nat} {cs : List ι} {r : List ℝ} (hne : cs ≠ []) (hlen : r.length = cs.length) (hr : ∀ x ∈ r, 0 ≤ x)
    (hg : ∀ c ∈ cs, IsLogProb (get c)) :
    ∃ i c p, traceChoice get pick cs (r.map XR.fin) = some i ∧ cs[i]? = some c ∧ r[i]? = some p ∧
      ∀ (j : Nat) (d : ι) (q : ℝ), cs[j]? = some d → r[j]? = some q → q * unlog (get d) ≤ p * unlog (get c) := by
  obtain ⟨us, h1, h2, h3, h4⟩ := weightedMax_spec (cs.map get) r (by simpa using hlen) (by simpa using hg) hr
  have hul : us.length = cs.length := by simpa using h2
  have hz : (us.zipIdx.map Prod.swap).map Prod.snd = us := by
    rw [List.map_map]
    have : (Prod.snd ∘ Prod.swap : XR × Nat → XR) = Prod.fst := rfl
    rw [this, List.zipIdx_map_fst]
  obtain ⟨t1, t2, t3⟩ := tiedChildren_spec (us.zipIdx.map Prod.swap) [] .ninf trivial (fun p hp => h3 p.2 (by rw [← hz]; exact List.mem_map_of_mem hp))
  rw [hz] at t1
  have t1' : (tiedChildren (us.zipIdx.map Prod.swap) ([], .ninf)).2 = maxCompute us := t1
  have hne' := t3 (fun _ => rfl) (Or.inr (by
    intro h0
    have : us = [] := by rw [← hz, h0]; rfl
    rw [this] at hul; exact hne (List.length_eq_zero_iff.1 hul.symm)))
  set mv := (tiedChildren (us.zipIdx.map Prod.swap) ([], .ninf)).1 with hmv
  have hl0 : mv.length ≠ 0 := fun h0 => hne' (List.length_eq_zero_iff.1 h0)
  have hlt : pick mv.length % mv.length < mv.length := Nat.mod_lt _ (Nat.pos_of_ne_zero hl0)
  have hc := (t2 _ (List.getElem_mem hlt)).resolve_left (by simp)
  rw [t1'] at hc
  set i := mv[pick mv.length % mv.length] with hi
  have hui : us[i]? = some (maxCompute us) := by
    obtain ⟨p, hp, hpe⟩ := List.mem_map.1 hc
    obtain ⟨x, k⟩ := p
    have : x = maxCompute us ∧ k = i := by simpa [Prod.swap, and_comm] using hpe
    obtain ⟨rfl, rfl⟩ := this
    exact List.mk_mem_zipIdx_iff_getElem?.1 hp
  have hil : i < cs.length := by rw [← hul]; exact (List.getElem?_eq_some_iff.1 hui).1
  have hval : ∀ (j : Nat) (d : ι) (q : ℝ), cs[j]? = some d → r[j]? = some q → ∃ u, us[j]? = some u ∧ unlog u = q * unlog (get d) := by
    intro j d q hd hq
    have := congrArg (fun l => l[j]?) h4
    simp only [List.getElem?_map, List.getElem?_zipWith, hq, hd, Option.map_some] at this
    cases hu : us[j]? with
    | none => simp [hu] at this
    | some u => rw [hu] at this; exact ⟨u, rfl, by simpa using this⟩
  refine ⟨i, cs[i], r[i]'(by omega), ?_, List.getElem?_eq_getElem _, List.getElem?_eq_getElem _, ?_⟩
  · simp only [traceChoice, h1, Option.bind_some]
    show (if mv.length = 0 then none else mv[pick mv.length % mv.length]?) = _
    rw [if_neg hl0, List.getElem?_eq_getElem hlt]
  · intro j d q hd hq
    obtain ⟨u, hu, hue⟩ := hval j d q hd hq
    obtain ⟨u', hu', hue'⟩ := hval i cs[i] (r[i]'(by omega)) (List.getElem?_eq_getElem _) (List.getElem?_eq_getElem _)
    rw [hui] at hu'
    obtain rfl := Option.some.inj hu'
    rw [← hue, ← hue']
    exact (maxCompute_spec us h3).2.2 u (List.mem_of_getElem? hu)

/-- The first part of `TraceMAP` fills its table with logarithms of probabilities, in whatever order it takes the nodes. -/
theorem traceTab_total {N : Net ι XR} {S : ι} {I : VarSet} (hw : NonnegWeights N S) (hl : LeavesMax N S I) : ∀ (l : List ι), (∀ n ∈ l, Reach N.ch S n) →
    ∀ tab : ι → Option XR, (∀ n x, tab n = some x → IsLogProb x) → ∃ tab', l.foldlM (N.traceTabStep I) tab = some tab' ∧ ∀ n x, tab' n = some x → IsLogProb x := by
  intro l
  induction l with
  | nil => intro _ tab h; exact ⟨tab, rfl, h⟩
  | cons s l ih =>
    intro hr tab ht
    have hget : ∀ c, IsLogProb ((tab c).getD (ofInt 0)) := by
      intro c
      cases hc : tab c with
      | none => exact isLogProb_fin _
      | some x => exact ht c x hc
    have hstep : ∃ v, N.traceTabStep I tab s = some (Function.update tab s (some v)) ∧ IsLogProb v := by
      unfold Net.traceTabStep
      cases hk : N.kind s with
      | leaf l' =>
        obtain ⟨x, hx, hx'⟩ := hl s l' (hr s (by simp)) hk
        exact ⟨x, by simp [hx], hx'⟩
      | sum cs w =>
        obtain ⟨_, r, rfl, hlen, hr0⟩ := hw s (hr s (by simp)) cs w hk
        obtain ⟨us, h1, _, h3, _⟩ := weightedMax_spec (cs.map fun c => (tab c).getD (ofInt 0)) r (by simpa using hlen) (by simpa using fun c _ => hget c) hr0
        exact ⟨maxCompute us, by simp only [h1]; rfl, (maxCompute_spec us h3).1⟩
      | product cs =>
        exact ⟨_, rfl, (prodCompute_spec _ (by simpa using fun c _ => hget c)).1⟩
    obtain ⟨v, h1, h2⟩ := hstep
    obtain ⟨tab', g1, g2⟩ := ih (fun n hn => hr n (by simp [hn])) (Function.update tab s (some v)) (by
      intro n x hn
      by_cases hns : n = s
      · subst hns; simp at hn; exact hn ▸ h2
      · rw [Function.update_of_ne hns] at hn; exact ht n x hn)
    exact ⟨tab', by rw [List.foldlM_cons, h1]; exact g1, g2⟩

/-- C36: with non-negative weights and leaves that have MAP values, `DeriveHard` never panics, on any acyclic network. -/
theorem C36_returns (N : Net ι XR) (S : ι) (I : VarSet) (pick : ι → Nat → Nat) (hac : Acyclic N.ch) (hd : IsDecomposable N S) (hl : LeavesAreLeaves N S)
    (hwt : NonnegWeights N S) (hlm : LeavesMax N S I) (st : Storer ι XR) (hw : st.WF) (tk : Int) (ht : tk < 0 ∨ st.table tk ≠ none) :
    ∃ st', N.deriveHard S st tk I pick = some (usedTicket st tk, st') := by
  obtain ⟨h1, a, h2, h3, h4, h5⟩ := dpStart_spec hw ht
  have e : newIfNeg tk st = dpStart st tk := rfl
  have hol := N.order_lists S
  obtain ⟨tab, htab, hlog⟩ := traceTab_total hwt hlm (N.order S) (fun n hn => (hol.2 n).1 hn) (fun _ => none) (by simp)
  have hget : ∀ c, IsLogProb ((tab c).getD (ofInt 0)) := by
    intro c
    cases hc : tab c with
    | none => exact isLogProb_fin _
    | some x => exact hlog c x hc
  obtain ⟨P, hP⟩ : ∃ P, work (N.traceStep (fun c => (tab c).getD (ofInt 0)) pick) false S (fun _ => none, {S}) = some P := by
    rw [work_static _ _ _ traceStep_eq]
    have hls := workOrder_lists (N.trCand (fun c => (tab c).getD (ofInt 0)) pick) false S
    have : ∀ (l : List ι) (x : (ι → Option Nat) × Finset ι), (∀ n ∈ l, Reach N.ch S n) →
        ∃ P, l.foldlM (N.trUpd (fun c => (tab c).getD (ofInt 0)) pick) x = some P := by
      intro l
      induction l with
      | nil => intro x _; exact ⟨x, rfl⟩
      | cons s l ih =>
        intro x hr
        have hstep : ∃ y, N.trUpd (fun c => (tab c).getD (ofInt 0)) pick x s = some y := by
          unfold Net.trUpd
          cases hk : N.kind s with
          | leaf l' => exact ⟨_, rfl⟩
          | product cs => exact ⟨_, rfl⟩
          | sum cs w =>
            obtain ⟨hne, r, rfl, hlen, hr0⟩ := hwt s (hr s (by simp)) cs w hk
            obtain ⟨i, c, p, q1, q2, _⟩ := traceChoice_spec (get := fun c => (tab c).getD (ofInt 0)) (pick := pick s) hne hlen hr0 (fun c _ => hget c)
            rw [← Option.isSome_iff_exists]
            simp only [Net.trIdx, hk, q1, q2, Option.bind_some, Option.map_some, Option.isSome_some]
        obtain ⟨y, hy⟩ := hstep
        obtain ⟨P, hP⟩ := ih y (fun n hn => hr n (by simp [hn]))
        exact ⟨P, by rw [List.foldlM_cons, hy]; exact hP⟩
    exact this _ _ (fun n hn => trReach_sub ((hls.2 n).1 hn))
  obtain ⟨p1, p2⟩ := traceLoop_spec hac hd hl hP
  have hls := workOrder_lists (N.hdCand P.1) false S
  obtain ⟨st2, g1, _⟩ := hardFold (N := N) (a := a) (T := P.1) (workOrder (N.hdCand P.1) false S) (dpStart st tk).2 hls.1 (by
    intro n _ cs w i hk hi
    by_cases hr : Reach (N.trCand (fun c => (tab c).getD (ofInt 0)) pick) S n
    · exact trIdx_lt hk ((p1 n hr).1 ▸ hi)
    · rw [p2 n hr] at hi; cases hi)
  refine ⟨st2, ?_⟩
  simp only [Net.deriveHard, e, h1, h2, Net.traceMAP, htab, Option.bind_some, hP, Option.map_some]
  rw [work_static _ _ _ (hardStep_eq (some a) P.1), g1]; rfl

/-- C36, part (missing: networks in which a child is reachable from a sibling listed after it, see `C36_choice_refuted`): the position counted at each sum node of the trace is one
where weight times MAP probability is greatest, so the trace is a MAP trace. -/
theorem C36_map_trace_partial (N : Net ι XR) (S : ι) (I : VarSet) (pick : ι → Nat → Nat) (hac : Acyclic N.ch) (hso : SiblingOrdered N.ch S) (hd : IsDecomposable N S)
    (hl : LeavesAreLeaves N S) (hwt : NonnegWeights N S) (hlm : LeavesMax N S I) (st : Storer ι XR) (hw : st.WF) (tk : Int) (ht : tk < 0 ∨ st.table tk ≠ none) :
    ∃ (st' : Storer ι XR) (choice : ι → Nat), N.deriveHard S st tk I pick = some (usedTicket st tk, st') ∧
      (∀ n cs w, OnTrace N choice S n → N.kind n = .sum cs w → ∃ c p, cs[choice n]? = some c ∧ w[choice n]? = some (.fin p) ∧
        ∀ (j : Nat) (d : ι) (q : ℝ), cs[j]? = some d → w[j]? = some (.fin q) → q * N.pmax I d ≤ p * N.pmax I c) ∧
      (∀ n (i : Int), (OnTrace N choice S n ∧ N.type n = .sum ∧ i = choice n) →
        st'.entry (usedTicket st tk) n i = some (add ((if tk < 0 then none else st.entry tk n i).getD (ofInt 0)) (ofInt 1))) ∧
      (∀ n (i : Int), ¬ (OnTrace N choice S n ∧ N.type n = .sum ∧ i = choice n) → st'.entry (usedTicket st tk) n i = if tk < 0 then none else st.entry tk n i) ∧
      (∀ k, k ≠ usedTicket st tk → ∀ n i, st'.entry k n i = st.entry k n i) := by
  obtain ⟨st', h⟩ := C36_returns N S I pick hac hd hl hwt hlm st hw tk ht
  obtain ⟨tab, choice, h1, _, _, h4, _, h6, h7, h8⟩ := deriveHard_spec N S I pick hac hd hl st hw tk ht _ st' h
  refine ⟨st', choice, h, ?_, h6, h7, h8⟩
  intro n cs w hn hk
  have htab := Net.traceTab_fold hac hso h1
  have hon : Reach N.ch S n := by
    clear hk
    induction hn with
    | root => exact Relation.ReflTransGen.refl
    | product _ hk hc ih => exact Relation.ReflTransGen.tail ih (by simpa [Net.ch, hk] using hc)
    | sum _ hk hc ih => exact Relation.ReflTransGen.tail ih (by simpa [Net.ch, hk] using List.mem_of_getElem? hc)
  have hcs : ∀ c ∈ cs, ∃ x, tab c = some x ∧ IsLogProb x ∧ unlog x = N.pmax I c := by
    intro c hc
    have hrc : Reach N.ch S c := Relation.ReflTransGen.tail hon (by simpa [Net.ch, hk] using hc : c ∈ N.ch n)
    obtain ⟨x, hx, hx'⟩ := Net.max_ok hac hwt hlm c hrc
    exact ⟨x, by rw [htab c hrc, hx], hx', by rw [Net.pmax_some hx]⟩
  have hp : ∀ c ∈ cs, IsLogProb ((tab c).getD (ofInt 0)) ∧ unlog ((tab c).getD (ofInt 0)) = N.pmax I c := by
    intro c hc
    obtain ⟨x, hx, h1, h2⟩ := hcs c hc
    rw [hx]; exact ⟨h1, h2⟩
  obtain ⟨hne, r, rfl, hlen, hr0⟩ := hwt n hon cs w hk
  obtain ⟨i, c, p, q1, q2, q3, q4⟩ := traceChoice_spec (get := fun c => (tab c).getD (ofInt 0)) (pick := pick n) hne hlen hr0 (fun c hc => (hp c hc).1)
  have := (h4 n cs _ hn hk).2
  rw [q1] at this
  obtain rfl := Option.some.inj this
  refine ⟨c, p, q2, by simp [q3], ?_⟩
  intro j d q hd hq
  have := q4 j d q hd (by
    rw [List.getElem?_map, Option.map_eq_some_iff] at hq
    obtain ⟨y, hy, he⟩ := hq
    cases he; exact hy)
  rwa [(hp d (List.mem_of_getElem? hd)).2, (hp c (List.mem_of_getElem? q2)).2] at this

/-- `mixNet` meets the conditions. -/
example : Acyclic mixNet.ch ∧ SiblingOrdered mixNet.ch 0 ∧ IsDecomposable mixNet 0 ∧ LeavesAreLeaves mixNet 0 ∧ NonnegWeights mixNet 0 ∧ LeavesMax mixNet 0 (fun _ => none) := by
  refine ⟨mixNet_acyclic, mixNet_siblings, mixNet_decomposable, ?_, mixNet_weights.nonneg, (mixNet_map (fun _ => none) (fun _ _ _ h => by cases h)).leavesMax⟩
  intro n _ ht
  fin_cases n <;> simp [mixNet, Net.ch, Net.type] at ht ⊢

/-- The network of `skipNet` with a leaf of two equally probable values and weights 3/5 and 2/5. -/
noncomputable def skipHard : Net (Fin 3) XR := ⟨![.sum [1, 2] [.fin (3 / 5), .fin (2 / 5)], .leaf (.multinomial [0] 0 [.fin (1 / 2), .fin (1 / 2)] 0 (.fin (1 / 2))), .product [1]]⟩

theorem skipHard_ch : skipHard.ch = skipDag := by funext i; fin_cases i <;> rfl

theorem skipHard_ok : Acyclic skipHard.ch ∧ IsDecomposable skipHard 0 ∧ IsComplete skipHard 0 ∧ LeavesAreLeaves skipHard 0 ∧ NonnegWeights skipHard 0 ∧
    LeavesMax skipHard 0 (fun _ => none) := by
  have hac : Acyclic skipHard.ch := by rw [skipHard_ch]; exact skipDag_acyclic
  refine ⟨hac, ?_, ?_, ?_, ?_, ?_⟩
  · intro n _ cs hk
    fin_cases n <;> simp [skipHard] at hk
    subst hk; simp
  · intro n _ cs w hk
    have hs : ∀ c : Fin 3, ∀ v, InScope skipHard c v → v = 0 := by
      rintro c v ⟨m, l, _, h, rfl⟩
      fin_cases m <;> simp [skipHard] at h
      subst h; rfl
    have hs' : ∀ c : Fin 3, InScope skipHard c 0 := by
      intro c
      refine ⟨1, _, ?_, rfl, rfl⟩
      rw [skipHard_ch]
      fin_cases c
      · exact Relation.ReflTransGen.single (by simp [skipDag])
      · exact Relation.ReflTransGen.refl
      · exact Relation.ReflTransGen.single (by simp [skipDag])
    intro c _ d _ v hv
    rw [hs c v hv]; exact hs' d
  · intro n _ ht
    fin_cases n <;> simp [skipHard, Net.ch, Net.type] at ht ⊢
  · intro n _ cs w hk
    fin_cases n <;> simp [skipHard] at hk
    obtain ⟨rfl, rfl⟩ := hk
    refine ⟨by simp, [3 / 5, 2 / 5], by simp, by simp, by intro x hx; simp at hx; rcases hx with rfl | rfl <;> norm_num⟩
  · intro n l _ hk
    fin_cases n <;> simp [skipHard] at hk
    subst hk
    exact ⟨_, rfl, by simp [XR.log]⟩

/-- C36 is refuted for networks in which a child is reachable from a sibling listed after it: here the position counted is the less probable one, since the product node was
evaluated before its child and read as 1. -/
theorem C36_choice_refuted : ∃ (N : Net (Fin 3) XR) (I : VarSet), Acyclic N.ch ∧ IsDecomposable N 0 ∧ IsComplete N 0 ∧ LeavesAreLeaves N 0 ∧ NonnegWeights N 0 ∧ LeavesMax N 0 I ∧
    N.kind 0 = .sum [1, 2] [.fin (3 / 5), .fin (2 / 5)] ∧ (2 / 5) * N.pmax I 2 < (3 / 5) * N.pmax I 1 ∧
    ∀ (pick : Fin 3 → Nat → Nat) (st : Storer (Fin 3) XR), st.WF → ∃ st', N.deriveHard 0 st (-1) I pick = some (st.tickets, st') ∧
      st'.entry st.tickets 0 1 = some (.fin 1) ∧ st'.entry st.tickets 0 0 = none := by
  obtain ⟨h1, h2, h3, h4, h5, h6⟩ := skipHard_ok
  refine ⟨skipHard, fun _ => none, h1, h2, h3, h4, h5, h6, rfl, ?_, ?_⟩
  · have e1 : skipHard.pmax (fun _ => none) 1 = 1 / 2 := by
      have : skipHard.max (fun _ => none) 1 = some (.fin (Real.log (1 / 2))) := by
        rw [Net.max_unfold h1]; simp [Net.maxStep, skipHard, Leaf.max, XR.log]
      rw [Net.pmax_some this, unlog_fin, Real.exp_log (by norm_num)]
    have e2 : skipHard.pmax (fun _ => none) 2 = 1 / 2 := by
      rw [Net.max_product h1 h5 h6 (n := 2) (cs := [1]) (Relation.ReflTransGen.single (by rw [skipHard_ch]; simp [skipDag])) rfl]
      simp [e1]
    rw [e1, e2]; norm_num
  · intro pick st hw
    obtain ⟨st', h⟩ := C36_returns skipHard 0 (fun _ => none) pick h1 h2 h4 h5 h6 st hw (-1) (Or.inl (by omega))
    have hu : usedTicket st (-1) = st.tickets := by simp [usedTicket]
    rw [hu] at h
    refine ⟨st', h, ?_⟩
    obtain ⟨tab, choice, g1, _, _, g4, _, g6, g7, _⟩ := deriveHard_spec skipHard 0 (fun _ => none) pick h1 h2 h4 st hw (-1) (Or.inl (by omega)) _ st' h
    have ho : skipHard.order 0 = [2, 1, 0] := by rw [Net.order, skipHard_ch]; decide
    have k0 : skipHard.kind 0 = .sum [1, 2] [.fin (3 / 5), .fin (2 / 5)] := rfl
    have k1 : skipHard.kind 1 = .leaf (.multinomial [0] 0 [.fin (1 / 2), .fin (1 / 2)] 0 (.fin (1 / 2))) := rfl
    have k2 : skipHard.kind 2 = .product [1] := rfl
    rw [ho] at g1
    have t1 : tab 1 = some (.fin (Real.log (1 / 2))) ∧ tab 2 = some (.fin 0) := by
      simp [Net.traceTabStep, k0, k1, k2, Leaf.max, weightedMax, prodCompute, XR.log] at g1
      subst g1
      simp +decide [Function.update_apply]
    have hc := (g4 0 _ _ .root k0).2
    have hlt : XR.lt (.fin (Real.log (3 / 5) + Real.log (1 / 2))) (.fin (Real.log (2 / 5))) = true := by
      rw [XR.lt_fin, ← Real.log_mul (by norm_num) (by norm_num)]
      exact Real.log_lt_log (by norm_num) (by norm_num)
    have hch : choice 0 = 1 := by
      have l1 : XR.log (.fin (3 / 5)) = .fin (Real.log (3 / 5)) := XR.log_pos (by norm_num)
      have l2 : XR.log (.fin (2 / 5)) = .fin (Real.log (2 / 5)) := XR.log_pos (by norm_num)
      simp only [traceChoice, List.map_cons, List.map_nil, t1.1, t1.2, Option.getD_some, weightedMax, Option.map_some, Option.bind_some, XR.g_log, XR.g_add, l1, l2, XR.add_fin,
        add_zero, List.zipIdx_cons, List.zipIdx_nil, Prod.swap, tiedChildren, XR.g_lt, hlt, if_true, XR.g_ninf] at hc
      have : XR.lt .ninf (.fin (Real.log (3 / 5) + Real.log (1 / 2))) = true := rfl
      simp only [this, if_true, hlt] at hc
      simp [Nat.mod_one] at hc
      exact hc.symm
    constructor
    · have := g6 0 1 ⟨.root, rfl, by rw [hch]; rfl⟩
      rw [this]; simp
    · rw [g7 0 0 (by rintro ⟨_, _, h⟩; rw [hch] at h; cases h)]
      simp

end Gospn
