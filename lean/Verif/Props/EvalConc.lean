/-
C95: concurrent evaluation of a classifier gives the score of the sequential one.
-/
import Verif.Proofs.EvalConc

set_option linter.unusedSectionVars false
set_option linter.unusedSimpArgs false

namespace Gospn
open Spec GoFloat
variable {ι F : Type} [GoFloat F] [DecidableEq ι] [Fintype ι]

/-- What a list of registrations does to a score. -/
theorem register_list {grow : Nat → Nat → Nat → Nat} {s : Nat} : ∀ (l : List (Int × Int)) (t : Nat) (m m' : ScoreMem) (o : ScoreObj), m.objs[s]? = some o → InBounds m.arrs o.preds →
    ScoreMem.run grow t m (l.map fun p => ScoreOp.register s p.1 p.2) = some m' →
    ∃ o', m'.objs[s]? = some o' ∧ o'.hits = o.hits + rightOnes (l.map fun p => ⟨p.1, p.2⟩) ∧ o'.misses = o.misses + wrongOnes (l.map fun p => ⟨p.1, p.2⟩) ∧ o'.total = o.total + l.length ∧
      m'.preds s = m.preds s ++ l.map fun p => ⟨p.1, p.2⟩ := by
  intro l
  induction l with
  | nil =>
    intro t m m' o ho hb h
    simp only [List.map_nil, ScoreMem.run, Option.some.injEq] at h
    subst h
    exact ⟨o, ho, by simp [rightOnes], by simp [wrongOnes], by simp, by simp⟩
  | cons p l ih =>
    intro t m m' o ho hb h
    have hlt := (List.getElem?_eq_some_iff.1 ho).1
    simp only [List.map_cons, ScoreMem.run, ScoreMem.step, ScoreMem.register, ho, Option.map_some, Option.bind_some] at h
    have hpre : (if p.1 = p.2 then { o with hits := o.hits + 1 } else { o with misses := o.misses + 1 }).preds = o.preds := by split <;> rfl
    obtain ⟨g1, g2, _⟩ := goAppend_spec (grow t) hb [⟨p.1, p.2⟩]
    rw [hpre] at h
    obtain ⟨o', k1, k2, k3, k4, k5⟩ := ih (t + 1) _ m' _ (by rw [List.getElem?_set_self hlt]) g2 h
    refine ⟨o', k1, ?_, ?_, ?_, ?_⟩
    · rw [k2]
      by_cases hp : p.1 = p.2 <;> simp [hp, rightOnes] <;> omega
    · rw [k3]
      by_cases hp : p.1 = p.2 <;> simp [hp, wrongOnes] <;> omega
    · rw [k4]
      by_cases hp : p.1 = p.2 <;> simp [hp] <;> omega
    · rw [k5]
      simp only [ScoreMem.preds, List.getElem?_set_self hlt, Option.map_some, Option.getD_some, ho, List.map_cons]
      rw [g1]
      simp

section
variable {N : Net ι F} {S : ι} {v cats : Int} {s : Nat} {grow : Nat → Nat → Nat → Nat} {ord : MapOrder} {cpu : Int} {h : Mem} {D : List Addr} {L : List Int} {sc : ScoreMem} {xs : List VarSet}

/-- The groups exist. -/
theorem conc_groups (hcpu : 0 < cpu) (hh : Holds h D xs) (ho : OrdersOf ord xs) (hL : L.length = xs.length) {k : Int} (hkD : ¬ (D.length : Int) < k) (hk : k ≤ 0 → cpu ≤ D.length) :
    ∃ G out, divide ord h D L (queueSize k cpu) = some G ∧ GroupsAre h G out ∧ (out.length : Int) = queueSize k cpu ∧ out.flatten.Perm (xs.zip L) := by
  have hD := Holds.length hh
  have hq := queueSize_pos k cpu hcpu
  have hle : queueSize k cpu ≤ D.length := by
    unfold queueSize
    split
    · exact hk (by assumption)
    · omega
  obtain ⟨G, out, h1, h2, h3, h4, _⟩ := C41_divide_partial (queueSize k cpu).toNat hh ho hL (by omega) (by omega)
  rw [Int.toNat_of_nonneg (by omega)] at h1
  exact ⟨G, out, h1, h2, by omega, h4⟩

theorem groups_mem (hh : Holds h D xs) {out : List (List (VarSet × Int))} (hp : out.flatten.Perm (xs.zip L)) {P : VarSet → Prop} (hx : ∀ I ∈ xs, P I) : ∀ o ∈ out, ∀ p ∈ o, P p.1 := by
  intro o ho p hpo
  have : p ∈ xs.zip L := hp.mem_iff.1 (List.mem_flatten.2 ⟨o, ho, hpo⟩)
  exact hx _ (List.of_mem_zip this).1

/-- When the concurrent part has returned, everything has been registered. -/
theorem conc_registered (hN : EvalNet N S) (hcpu : 0 < cpu) (hs : s < sc.objs.length) {n : Nat} (hn : n ≠ 0) {k : Int} {G : Groups} {out : List (List (VarSet × Int))} (hG : GroupsAre h G out)
    (hlen : (out.length : Int) = queueSize k cpu) (hev : ∀ o ∈ out, ∀ p ∈ o, Evaluable N S v cats p.1) {t : List QEvent} {q : QState} {x : ConcEval ι F}
    (hr : ConcRun N S v cats n s grow G (QState.init (queueSize k cpu) [imgProg (queueSize k cpu).toNat]) (.start G sc) t q x) (hret : ∀ c ∈ q.callers, c.prog = []) :
    x.log.Perm (out.flatten.map fun p => (instLabel N S v cats p.1, p.2)) := by
  have hi := ConcInv.run hN hG hev hn hs hr
  have hdl : G.data.length = out.length := hG.1.length_eq
  rw [← Multiset.coe_eq_coe, hi.logged]
  have hall : ∀ j ∈ Finset.range G.data.length, ((((out[j]?).getD []).map fun p => (instLabel N S v cats p.1, p.2)).take (x.pos j) : Multiset (Int × Int)) =
      (((out[j]?).getD []).map fun p => (instLabel N S v cats p.1, p.2) : Multiset (Int × Int)) := by
    intro j hj
    rw [Finset.mem_range] at hj
    obtain ⟨g, h1, h2⟩ := hi.ended _ _ _ (imgRun_returned hcpu hr.toQRun hret (id := j) (by omega))
    rw [goIdx_natCast] at h1
    rw [List.take_of_length_le]
    have hlo : j < out.length := by omega
    have := (List.forall₂_iff_get.1 hG.1).2 j hj hlo
    simp only [List.get_eq_getElem, (List.getElem?_eq_some_iff.1 h1).2] at this
    have := Holds.length this
    rw [List.getElem?_eq_getElem hlo]
    simp at this ⊢
    omega
  rw [Finset.sum_congr rfl hall, hdl]
  clear hall hev hlen hi hr hG hdl
  induction out using List.reverseRecOn with
  | nil => simp
  | append_singleton l o ih =>
    rw [List.length_append, List.length_singleton, Finset.sum_range_succ, List.flatten_append, List.map_append, ← Multiset.coe_add, ← ih]
    congr 1
    · apply Finset.sum_congr rfl
      intro j hj
      rw [Finset.mem_range] at hj
      rw [List.getElem?_append_left hj]
    · simp

/-- **C95**, part: for at least ten instances that all contain the class variable, as many labels, a network on which inference is right (C04) and, if the number of jobs is left to the program, no more processors than
instances: whatever the number of jobs and the interleaving, if `EvaluatePosteriorConc` returns then it has registered with the score the predictions that `EvaluatePosterior` registers, each as often, in some order;
so hits, misses, total and, up to order, predictions are the same. No map that existed before has changed.
Missing: fewer than ten instances and more processors than instances (`C95_few_refuted`, `C95_cpu_refuted`). -/
theorem C95_same_partial (hN : EvalNet N S) (hcpu : 0 < cpu) (hh : Holds h D xs) (ho : OrdersOf ord xs) (hL : L.length = xs.length) {o : ScoreObj} (hs : sc.objs[s]? = some o) (hb : InBounds sc.arrs o.preds)
    (h10 : 10 ≤ D.length) {k : Int} (hk : k ≤ 0 → cpu ≤ D.length) (hx : ∀ I ∈ xs, (I v).isSome ∧ Evaluable N S v cats I) :
    ∃ y o1, evaluatePosterior N S v cats s grow h D L sc = some y ∧ y.mem = h ∧ y.sc.objs[s]? = some o1 ∧
      ∀ mem' sc', EvaluateConc N S v cats s grow ord cpu h D L sc k mem' sc' → (∀ a, a < h.length → mem'[a]? = h[a]?) ∧
        ∃ o2, sc'.objs[s]? = some o2 ∧ o2.hits = o1.hits ∧ o2.misses = o1.misses ∧ o2.total = o1.total ∧ (sc'.preds s).Perm (y.sc.preds s) := by
  have hslt := (List.getElem?_eq_some_iff.1 hs).1
  obtain ⟨y, h1, h2, h3⟩ := evaluatePosterior_labels (grow := grow) hN hh hL hslt (Or.inr h10) hx
  have h3' : ScoreMem.run grow 0 sc (((xs.zip L).map fun q => (instLabel N S v cats q.1, q.2)).map fun p => ScoreOp.register s p.1 p.2) = some y.sc := by
    rw [← h3, List.map_map]; rfl
  obtain ⟨o1, g1, g2, g3, g4, g5⟩ := register_list _ 0 sc y.sc o hs hb h3'
  refine ⟨y, o1, h1, h2, g1, ?_⟩
  rintro mem' sc' hc
  cases hc with
  | few hlt he =>
    rw [h1, Option.some.injEq] at he
    subst he
    exact ⟨fun a _ => by rw [h2], o1, g1, rfl, rfl, rfl, List.Perm.refl _⟩
  | @many G t q x hlt hdiv hr hret =>
    obtain ⟨G', out, d1, d2, d3, d4⟩ := conc_groups hcpu hh ho hL hlt hk
    rw [hdiv, Option.some.injEq] at d1
    subst d1
    have hev := groups_mem hh d4 (P := fun I => Evaluable N S v cats I) (fun I hI => (hx I hI).2)
    have hn : D.length / 10 ≠ 0 := by omega
    have hi := ConcInv.run hN d2 hev hn hslt hr
    have hp := conc_registered hN hcpu hslt hn d2 d3 hev hr hret
    have hp' := hp.trans (d4.map _)
    refine ⟨?_, ?_⟩
    · intro a ha
      rw [hi.outside a (fun hm => by have := (d2.2.2.2.2 a hm).1; omega)]
      obtain ⟨tl, htl⟩ := d2.2.2.1
      rw [← htl, List.getElem?_append_left ha]
    · obtain ⟨o2, f1, f2, f3, f4, f5⟩ := register_list _ 0 sc x.sc o hs hb hi.scores
      refine ⟨o2, f1, ?_, ?_, ?_, ?_⟩
      · rw [f2, g2]
        unfold rightOnes
        rw [(hp'.map _).countP_eq]
      · rw [f3, g3]
        unfold wrongOnes
        rw [(hp'.map _).countP_eq]
      · rw [f4, g4, hp'.length_eq]
      · rw [f5, g5]
        exact (hp'.map _).append_left _

/-- The instances the jobs have still to do, in total, and the steps the queue has still to make. -/
def concCost (G : Groups) (q : QState) (x : ConcEval ι F) : Nat := q.cost + ∑ k ∈ Finset.range G.data.length, (((G.data[k]?).getD []).length - x.pos k)

theorem ConcStep.cost {n : Nat} {G : Groups} {q q' : QState} {x x' : ConcEval ι F} {e : Option QEvent} (hs : ConcStep N S v cats n s grow G q x e q' x') : concCost G q' x' < concCost G q x := by
  unfold concCost
  cases hs with
  | quiet hq _ => have := hq.cost; omega
  | finish hq => have := hq.cost; omega
  | @inst _ w c i id g lb a e p y hw hg hl ha he hst =>
    obtain ⟨k, rfl, hk⟩ := goIdx_some hg
    have hpl : x.pos k < g.length := (List.getElem?_eq_some_iff.1 ha).1
    apply Nat.add_lt_add_left
    apply Finset.sum_lt_sum
    · intro j hj
      simp only [Function.update_apply]
      split
      · rename_i e; rw [e]; omega
      · omega
    · refine ⟨k, Finset.mem_range.2 (List.getElem?_eq_some_iff.1 hk).1, ?_⟩
      simp only [Function.update_self, hk, Option.getD_some]
      omega

/-- In every reachable state something can happen unless everything is done. -/
theorem conc_progress (hN : EvalNet N S) (hcpu : 0 < cpu) (hs : s < sc.objs.length) {n : Nat} (hn : n ≠ 0) {k : Int} {G : Groups} {out : List (List (VarSet × Int))} (hG : GroupsAre h G out)
    (hlen : (out.length : Int) = queueSize k cpu) (hev : ∀ o ∈ out, ∀ p ∈ o, Evaluable N S v cats p.1) {t : List QEvent} {q : QState} {x : ConcEval ι F}
    (hr : ConcRun N S v cats n s grow G (QState.init (queueSize k cpu) [imgProg (queueSize k cpu).toNat]) (.start G sc) t q x) (hf : ¬ Finished q) :
    ∃ e q' x', ConcStep N S v cats n s grow G q x e q' x' := by
  have hi := ConcInv.run hN hG hev hn hs hr
  have hdl : G.data.length = out.length := hG.1.length_eq
  obtain ⟨e, q', hq⟩ := C17_no_deadlock k cpu hcpu _ t q hr.toQRun hf
  by_cases he : ∀ c i id, e ≠ some (.finish c i id)
  · exact ⟨e, q', x, .quiet hq he⟩
  · push Not at he
    obtain ⟨c, i, id, rfl⟩ := he
    obtain ⟨rfl, rfl, hlt, _⟩ := imgRun_finish hr.toQRun hq
    have hid : i < G.data.length := by omega
    have hg : G.data[i]? = some G.data[i] := List.getElem?_eq_getElem hid
    have hl : ∃ l, goIdx G.labels (i : Int) = some l := by
      rw [goIdx_natCast, hG.2.1, List.getElem?_map, List.getElem?_eq_getElem (by omega)]
      exact ⟨_, rfl⟩
    obtain ⟨l, hl⟩ := hl
    by_cases hp : x.pos i = G.data[i].length
    · exact ⟨_, q', x, .finish hq (by rw [goIdx_natCast]; exact hg) hl hp⟩
    · have hle := hi.pos i _ hg
      have hpl : x.pos i < G.data[i].length := by omega
      have ha : G.data[i][x.pos i]? = some G.data[i][x.pos i] := List.getElem?_eq_getElem hpl
      obtain ⟨o, pr, l', f1, f2, f3, f4, f5, f6⟩ := GroupsAre.at_place hG hg ha
      rw [goIdx_natCast, f4, Option.some.injEq] at hl
      subst hl
      obtain ⟨st', sc', g1, g2, g3⟩ := concEvalStep_good hN (tk := (Storer.new : Storer ι F).newTicket.1) (n := n) (grow := grow x.log.length) (x := ⟨x.mem, x.st i, x.sc⟩) (e := pr.2)
        (hev o (List.mem_of_getElem? f1) pr (List.mem_of_getElem? f2)) (by rw [← f3]; exact hi.left i _ _ _ hg ha (le_refl _)) (hi.good i) hi.objs hn
      cases hq with
      | finish w c q j hw =>
        exact ⟨none, _, _, .inst hw (by rw [goIdx_natCast]; exact hg) (by rw [goIdx_natCast]; exact f4) ha f5 g3⟩

/-- **C95**: under the conditions of `C95_same_partial` no execution is infinite or gets stuck, so `EvaluatePosteriorConc` does return. -/
theorem C95_returns (hN : EvalNet N S) (hcpu : 0 < cpu) (hh : Holds h D xs) (ho : OrdersOf ord xs) (hL : L.length = xs.length) (hs : s < sc.objs.length)
    (h10 : 10 ≤ D.length) {k : Int} (hk : k ≤ 0 → cpu ≤ D.length) (hx : ∀ I ∈ xs, (I v).isSome ∧ Evaluable N S v cats I) :
    (∃ mem' sc', EvaluateConc N S v cats s grow ord cpu h D L sc k mem' sc') ∧
    ∀ G, divide ord h D L (queueSize k cpu) = some G → k ≤ D.length →
      (¬ ∃ f : Nat → QState × ConcEval ι F, f 0 = (QState.init (queueSize k cpu) [imgProg (queueSize k cpu).toNat], .start G sc) ∧
        ∀ i, ∃ e, ConcStep N S v cats (D.length / 10) s grow G (f i).1 (f i).2 e (f (i + 1)).1 (f (i + 1)).2) ∧
      ∀ t q x, ConcRun N S v cats (D.length / 10) s grow G (QState.init (queueSize k cpu) [imgProg (queueSize k cpu).toNat]) (.start G sc) t q x →
        (∀ e q' x', ¬ ConcStep N S v cats (D.length / 10) s grow G q x e q' x') → Finished q := by
  have hn : D.length / 10 ≠ 0 := by omega
  refine ⟨?_, ?_⟩
  · by_cases hlt : (D.length : Int) < k
    · obtain ⟨y, h1, _⟩ := evaluatePosterior_labels (grow := grow) hN hh hL hs (Or.inr h10) hx
      exact ⟨_, _, .few hlt h1⟩
    · obtain ⟨G, out, d1, d2, d3, d4⟩ := conc_groups hcpu hh ho hL hlt hk
      have hev := groups_mem hh d4 (P := fun I => Evaluable N S v cats I) (fun I hI => (hx I hI).2)
      have key : ∀ (c : Nat) (t : List QEvent) (q : QState) (x : ConcEval ι F),
          ConcRun N S v cats (D.length / 10) s grow G (QState.init (queueSize k cpu) [imgProg (queueSize k cpu).toNat]) (.start G sc) t q x → concCost G q x = c →
          ∃ t' q' x', ConcRun N S v cats (D.length / 10) s grow G (QState.init (queueSize k cpu) [imgProg (queueSize k cpu).toNat]) (.start G sc) t' q' x' ∧ Finished q' := by
        intro c
        induction c using Nat.strong_induction_on with
        | _ c ih =>
          intro t q x hr hc
          by_cases hf : Finished q
          · exact ⟨t, q, x, hr, hf⟩
          · obtain ⟨e, q', x', hst⟩ := conc_progress hN hcpu hs hn d2 d3 hev hr hf
            exact ih _ (by rw [← hc]; exact hst.cost) _ _ _ (.step hr hst) rfl
      obtain ⟨t, q, x, hr, hf⟩ := key _ _ _ _ (.nil _ _) rfl
      exact ⟨_, _, .many hlt d1 hr hf.1⟩
  · intro G hG hkD
    obtain ⟨G', out, d1, d2, d3, d4⟩ := conc_groups hcpu hh ho hL (k := k) (by omega) hk
    rw [hG, Option.some.injEq] at d1
    subst d1
    have hev := groups_mem hh d4 (P := fun I => Evaluable N S v cats I) (fun I hI => (hx I hI).2)
    refine ⟨?_, ?_⟩
    · rintro ⟨f, _, hf⟩
      have : ∀ i, concCost G (f i).1 (f i).2 + i ≤ concCost G (f 0).1 (f 0).2 := by
        intro i
        induction i with
        | zero => simp
        | succ i ih => obtain ⟨e, he⟩ := hf i; have := he.cost; omega
      have := this (concCost G (f 0).1 (f 0).2 + 1)
      omega
    · intro t q x hr hst
      by_contra hf
      obtain ⟨e, q', x', h1⟩ := conc_progress hN hcpu hs hn d2 d3 hev hr hf
      exact hst e q' x' h1

/-- **C95** fails: if the number of jobs is left to the program and there are fewer instances than processors, `EvaluatePosteriorConc` panics (in `Divide`). -/
theorem C95_cpu_refuted (N : Net ι F) (S : ι) (v cats : Int) (s : Nat) (grow : Nat → Nat → Nat → Nat) (ord : MapOrder) (h : Mem) (D : List Addr) (L : List Int) (sc : ScoreMem) {k : Int} (hk : k ≤ 0)
    (h0 : 0 < D.length) (hcpu : (D.length : Int) < cpu) : ¬ ∃ mem' sc', EvaluateConc N S v cats s grow ord cpu h D L sc k mem' sc' := by
  rintro ⟨mem', sc', hc⟩
  cases hc with
  | few hlt _ => omega
  | many _ hdiv _ _ =>
    have hq : queueSize k cpu = (cpu.toNat : Int) := by
      unfold queueSize; rw [if_pos hk]; omega
    rw [hq, C41_refuted cpu.toNat h0 (by omega)] at hdiv
    cases hdiv

/-- **C95** fails: without instances, and the number of jobs left to the program, it panics unless there is one processor: there is one group only. -/
theorem C95_empty_refuted (N : Net ι F) (S : ι) (v cats : Int) (s : Nat) (grow : Nat → Nat → Nat → Nat) (ord : MapOrder) (h : Mem) (L : List Int) (sc : ScoreMem) {k : Int} (hk : k ≤ 0)
    (hcpu : 1 < cpu) : ¬ ∃ mem' sc', EvaluateConc N S v cats s grow ord cpu h [] L sc k mem' sc' := by
  rintro ⟨mem', sc', hc⟩
  cases hc with
  | few hlt _ => simp at hlt; omega
  | @many G t q x _ hdiv hr hret =>
    have hq : queueSize k cpu = (cpu.toNat : Int) := by
      unfold queueSize; rw [if_pos hk]; omega
    have hdiv' := hdiv
    rw [hq, C41_empty cpu.toNat (by omega), Option.some.injEq] at hdiv'
    have hfin := imgRun_returned (by omega) hr.toQRun hret (id := 1) (by omega)
    have hno : ∀ {q0 x0 t q x}, ConcRun N S v cats (List.length ([] : List Addr) / 10) s grow G q0 x0 t q x → ∀ c i (id : Int), QEvent.finish c i id ∈ t → ∃ g, goIdx G.data id = some g := by
      intro q0 x0 t q x hr
      induction hr with
      | nil => simp
      | step _ hst ih =>
        intro c i id hm
        rcases List.mem_append.1 hm with hm | hm
        · exact ih c i id hm
        · cases hst with
          | quiet _ hne => exact absurd (by simpa using hm) (hne c i id)
          | inst => simp at hm
          | finish _ hg _ _ =>
            simp only [Option.toList_some, List.mem_singleton, QEvent.finish.injEq] at hm
            obtain ⟨_, _, rfl⟩ := hm
            exact ⟨_, hg⟩
    obtain ⟨g, hg⟩ := hno hr _ _ _ hfin
    rw [← hdiv'] at hg
    simp [goIdx] at hg

/-- Without ten instances the first registration is followed by a division by zero. -/
theorem concEvalStep_zero {tk : Int} {grow : Nat → Nat → Nat} {x : EvalState ι F} {a : Addr} {e : Int} {o : ScoreObj} (ho : x.sc.objs[s]? = some o) (h0 : 0 ≤ o.total) :
    concEvalStep N S v cats tk 0 s grow x a e = none := by
  unfold concEvalStep
  rw [Option.bind_eq_none_iff]
  intro h1 _
  rw [Option.bind_eq_none_iff]
  intro J _
  rw [Option.bind_eq_none_iff]
  intro r _
  simp only
  rw [Option.bind_eq_none_iff]
  intro y _
  have hlt := (List.getElem?_eq_some_iff.1 ho).1
  simp only [ScoreMem.register, ho, Option.map_some, Option.bind_some, List.getElem?_set_self hlt]
  rw [if_pos]
  refine ⟨?_, trivial⟩
  split <;> simp <;> omega

/-- **C95** fails: for one to nine instances (and no more jobs than instances) `EvaluatePosteriorConc` panics, whatever the network, the interleaving and the number of jobs. -/
theorem C95_few_refuted (N : Net ι F) (S : ι) (v cats : Int) (s : Nat) (grow : Nat → Nat → Nat → Nat) (ord : MapOrder) (h : Mem) (D : List Addr) (L : List Int) (sc : ScoreMem) (hcpu : 0 < cpu)
    {xs : List VarSet} (hh : Holds h D xs) (ho : OrdersOf ord xs) (hL : L.length = xs.length) {o : ScoreObj} (hs : sc.objs[s]? = some o) (htot : 0 ≤ o.total)
    (h1 : 1 ≤ D.length) (h9 : D.length ≤ 9) {k : Int} (hk : k ≤ D.length) : ¬ ∃ mem' sc', EvaluateConc N S v cats s grow ord cpu h D L sc k mem' sc' := by
  by_cases hbig : k ≤ 0 ∧ (D.length : Int) < cpu
  · exact C95_cpu_refuted N S v cats s grow ord h D L sc hbig.1 h1 hbig.2
  · rintro ⟨mem', sc', hc⟩
    cases hc with
    | few hlt _ => omega
    | @many G t q x hlt hdiv hr hret =>
      obtain ⟨G', out, d1, d2, d3, d4⟩ := conc_groups hcpu hh ho hL hlt (fun h0 => by by_contra hn; exact hbig ⟨h0, by omega⟩)
      rw [hdiv, Option.some.injEq] at d1
      subst d1
      have hn0 : D.length / 10 = 0 := by omega
      rw [hn0] at hr
      have hinv : ∀ {q0 t q x}, ConcRun N S v cats 0 s grow G q0 (.start G sc) t q x → x = .start G sc ∧ ∀ c i (id : Int), QEvent.finish c i id ∈ t → goIdx G.data id = some [] := by
        intro q0 t q x hr
        generalize hx0 : ConcEval.start G sc = x0 at hr
        induction hr with
        | nil => exact ⟨rfl, by simp⟩
        | step _ hst ih =>
          obtain ⟨i1, i2⟩ := ih hx0
          subst hx0
          cases hst with
          | quiet _ hne =>
            refine ⟨i1, ?_⟩
            intro c i id hm
            rcases List.mem_append.1 hm with hm | hm
            · exact i2 c i id hm
            · exact absurd (by simpa using hm) (hne c i id)
          | inst _ _ _ _ _ hst =>
            subst i1
            rw [concEvalStep_zero (o := o) hs htot] at hst
            cases hst
          | finish _ hg _ hp =>
            refine ⟨i1, ?_⟩
            intro c i id hm
            rcases List.mem_append.1 hm with hm | hm
            · exact i2 c i id hm
            · simp only [Option.toList_some, List.mem_singleton, QEvent.finish.injEq] at hm
              obtain ⟨_, _, rfl⟩ := hm
              rw [i1] at hp
              rw [hg, Option.some.injEq]
              exact List.length_eq_zero_iff.1 hp.symm
      have hdl : G.data.length = out.length := d2.1.length_eq
      have hempty : ∀ g ∈ G.data, g = [] := by
        intro g hg
        obtain ⟨i, hi, rfl⟩ := List.getElem_of_mem hg
        have := (hinv hr).2 _ _ _ (imgRun_returned hcpu hr.toQRun hret (id := i) (by omega))
        rw [goIdx_natCast, List.getElem?_eq_getElem hi, Option.some.injEq] at this
        exact this
      have hout : ∀ o ∈ out, o = [] := by
        intro o' ho'
        obtain ⟨i, hi, rfl⟩ := List.getElem_of_mem ho'
        have h2 := (List.forall₂_iff_get.1 d2.1).2 i (by omega) hi
        simp only [List.get_eq_getElem] at h2
        have h3 := Holds.length h2
        rw [hempty _ (List.getElem_mem _)] at h3
        simp only [List.length_nil, List.length_map] at h3
        exact List.length_eq_zero_iff.1 h3.symm
      have hz : out.flatten = [] := List.flatten_eq_nil_iff.2 hout
      rw [hz] at d4
      have := d4.length_eq
      have hD := Holds.length hh
      simp at this
      omega

end

theorem mixNet_evalNet : EvalNet mixNet 0 := by
  refine ⟨mixNet_acyclic, mixNet_siblings, by decide, ?_⟩
  intro n cs w h
  fin_cases n <;> simp [mixNet] at h
  rw [← h.1]; simp

theorem mixNet_evaluable : Evaluable mixNet 0 0 2 (VarSet.single 0 1) := by
  constructor
  · obtain ⟨x, _, _, h1, _⟩ := C06_value_marginal_unnormalised mixNet 0 (fun _ => {0, 1}) _ mixNet_acyclic mixNet_complete mixNet_decomposable mixNet_weights.nonneg mixNet_discrete
      (mixNet_single_domain 0 1)
    rw [h1]; simp
  · intro j h0 h2
    obtain ⟨x, _, _, h1, _⟩ := C06_value_marginal_unnormalised mixNet 0 (fun _ => {0, 1}) ((VarSet.single 0 1).set 0 j) mixNet_acyclic mixNet_complete mixNet_decomposable mixNet_weights.nonneg
      mixNet_discrete (by
        intro w _ y hy
        by_cases hw : w = 0
        · simp [VarSet.set, hw] at hy
          have : j = 0 ∨ j = 1 := by omega
          rcases this with rfl | rfl <;> simp [← hy]
        · simp [VarSet.set, VarSet.single, hw] at hy)
    rw [h1]; simp

/-- Twelve instances, for the examples. -/
theorem twelve_holds : Holds (List.replicate 12 (VarSet.single 0 1)) (List.range 12) (List.replicate 12 (VarSet.single 0 1)) := by
  simp [Spec.Holds, List.range_succ, List.replicate_succ]

theorem twelve_orders : OrdersOf (fun _ _ => [0]) (List.replicate 12 (VarSet.single 0 1)) := by
  intro t x hx
  rw [List.mem_replicate] at hx
  obtain ⟨_, rfl⟩ := hx
  refine ⟨by simp, fun k => ?_⟩
  by_cases h0 : k = 0 <;> simp [h0, VarSet.single]

/-- A network and twelve instances that meet the hypotheses of `C95_same_partial` and `C95_returns`, with five jobs: the concurrent evaluation of a new score returns, and has the counts of the sequential one. -/
example (grow : Nat → Nat → Nat → Nat) : ∃ mem' sc' o2, EvaluateConc mixNet 0 0 2 0 grow (fun _ _ => [0]) 8 (List.replicate 12 (VarSet.single 0 1)) (List.range 12) (List.replicate 12 1)
    ⟨[], [⟨0, 0, 0, none⟩]⟩ 5 mem' sc' ∧ sc'.objs[0]? = some o2 := by
  have hx : ∀ I ∈ List.replicate 12 (VarSet.single 0 1), (I 0).isSome ∧ Evaluable mixNet 0 0 2 I := by
    intro I hI
    rw [List.mem_replicate] at hI
    obtain ⟨_, rfl⟩ := hI
    exact ⟨by simp [VarSet.single], mixNet_evaluable⟩
  obtain ⟨⟨mem', sc', h1⟩, _⟩ := C95_returns (grow := grow) (s := 0) (sc := ⟨[], [⟨0, 0, 0, none⟩]⟩) (cpu := 8) (L := List.replicate 12 1) (k := 5) mixNet_evalNet (by omega) twelve_holds twelve_orders
    (by simp) (by simp) (by simp) (by simp) hx
  obtain ⟨y, o1, _, _, _, h5⟩ := C95_same_partial (grow := grow) (s := 0) (sc := ⟨[], [⟨0, 0, 0, none⟩]⟩) (o := ⟨0, 0, 0, none⟩) (cpu := 8) (L := List.replicate 12 1) (k := 5) mixNet_evalNet (by omega)
    twelve_holds twelve_orders (by simp) rfl trivial (by simp) (by simp) hx
  obtain ⟨_, o2, h6, _⟩ := h5 mem' sc' h1
  exact ⟨mem', sc', o2, h1, h6⟩

/-- Five instances that meet the hypotheses of `C95_few_refuted`, with two jobs. -/
example (grow : Nat → Nat → Nat → Nat) : ¬ ∃ mem' sc', EvaluateConc mixNet 0 0 2 0 grow (fun _ _ => [1, 0]) 8 five (List.range 5) [0, 1, 0, 1, 1] ⟨[], [⟨0, 0, 0, none⟩]⟩ 2 mem' sc' :=
  C95_few_refuted mixNet 0 0 2 0 grow _ five (List.range 5) _ _ (by omega) five_holds five_orders rfl (o := ⟨0, 0, 0, none⟩) rfl (by simp) (by simp) (by simp) (by simp)

end Gospn
