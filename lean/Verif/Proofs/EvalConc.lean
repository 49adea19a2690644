/-
The jobs of `EvaluatePosteriorConc`.
-/
import Verif.Model.EvalConc
import Verif.Spec.Evaluate
import Verif.Props.Evaluate
import Verif.Props.ImgJobs
import Verif.Props.Data
import Mathlib.Algebra.Order.BigOperators.Group.Multiset
import Mathlib.Algebra.BigOperators.Group.Finset.Basic

set_option linter.unusedSectionVars false
set_option linter.unusedSimpArgs false

namespace Gospn
open Spec GoFloat
variable {ι F : Type} [GoFloat F] [DecidableEq ι] [Fintype ι]

/-- The class predicted for an instance. -/
def instLabel (N : Net ι F) (S : ι) (v cats : Int) (I : VarSet) : Int :=
  (postClass (fun j => (N.value (I.set v (j : Int)) S).getD (ofInt 0)) ((N.value (I.del v) S).getD (ofInt 0)) (List.range cats.toNat) (ninf, 0)).2

/-- What both evaluations do with an instance before they register the prediction. -/
theorem instLabel_loop {N : Net ι F} {S : ι} (hN : EvalNet N S) {v cats tk : Int} {I : VarSet} (hI : Evaluable N S v cats I) {h : Mem} {a : Addr} (ha : h[a]? = some I)
    {st : Storer ι F} (hg : GoodAt tk st) :
    ∃ st1 st2 mp pe, N.storeInference S (I.del v) tk st = some (some (S, tk), st1) ∧ (st1.single tk S) = some pe ∧ GoodAt tk st2 ∧
      (List.range cats.toNat).foldlM (posteriorStep N S v tk a pe) ⟨h.set a (I.del v), st1, ninf, 0⟩ = some ⟨h.set a (I.del v), st2, mp, instLabel N S v cats I⟩ := by
  have halt : a < h.length := (List.getElem?_eq_some_iff.1 ha).1
  obtain ⟨pe, hpe⟩ := Option.ne_none_iff_exists'.1 hI.1
  obtain ⟨st1, g1, g2, g3⟩ := storeInference_good hN.acyclic hN.order hN.root hN.sums hg hpe
  have hdv : I.del v v = none := by simp [VarSet.del]
  obtain ⟨st2, g4, g5⟩ := posterior_loop hN.acyclic hN.order hN.root hN.sums (v := v) (a := a) (pe := pe) hdv (val := fun j => (N.value (I.set v (j : Int)) S).getD (ofInt 0)) (List.range cats.toNat)
      ⟨h.set a (I.del v), st1, ninf, 0⟩ g2 (by simp [halt]) (fun j hj => by
        rw [del_set]
        obtain ⟨x, hx⟩ := Option.ne_none_iff_exists'.1 (hI.2 j (by omega) (by rw [List.mem_range] at hj; omega))
        rw [hx]; rfl)
  refine ⟨st1, st2, (postClass (fun j => (N.value (I.set v (j : Int)) S).getD (ofInt 0)) pe (List.range cats.toNat) (ninf, 0)).1, pe, g1, g3, g4, ?_⟩
  rw [g5]
  simp only [instLabel, hpe, Option.getD_some]

/-- One instance of a job. -/
theorem concEvalStep_good {N : Net ι F} {S : ι} (hN : EvalNet N S) {v cats tk : Int} {n s : Nat} {grow : Nat → Nat → Nat} {x : EvalState ι F} {a : Addr} {e : Int} {I : VarSet}
    (hI : Evaluable N S v cats I) (ha : x.mem[a]? = some I) (hg : GoodAt tk x.st) (hs : s < x.sc.objs.length) (hn : n ≠ 0) :
    ∃ st' sc', GoodAt tk st' ∧ x.sc.register grow s (instLabel N S v cats I) e = some sc' ∧
      concEvalStep N S v cats tk n s grow x a e = some (⟨x.mem.set a (I.del v), st', sc'⟩, instLabel N S v cats I) := by
  obtain ⟨st1, st2, mp, pe, g1, g2, g3, g4⟩ := instLabel_loop hN hI ha hg
  have halt : a < x.mem.length := (List.getElem?_eq_some_iff.1 ha).1
  obtain ⟨sc', h1, h2⟩ := register_some grow x.sc s hs (instLabel N S v cats I) e
  refine ⟨st2.reset tk, sc', g3.reset, h1, ?_⟩
  unfold concEvalStep
  simp only [Mem.delete, ha, Option.map_some, Option.bind_some, List.getElem?_set_self halt, g1, g2, Option.getD_some, g4, h1]
  rw [List.getElem?_eq_getElem (by omega)]
  simp [hn]

/-- The sequential evaluation registers the same predictions, in the order of the data. -/
theorem evaluatePosterior_labels {N : Net ι F} {S : ι} (hN : EvalNet N S) {v cats : Int} {s : Nat} {grow : Nat → Nat → Nat → Nat} {h : Mem} {D : List Addr} {L : List Int} {sc : ScoreMem}
    {xs : List VarSet} (hh : Holds h D xs) (hL : L.length = xs.length) (hs : s < sc.objs.length) (hlen : D.length ≤ 1 ∨ 10 ≤ D.length)
    (hx : ∀ I ∈ xs, (I v).isSome ∧ Evaluable N S v cats I) :
    ∃ y, evaluatePosterior N S v cats s grow h D L sc = some y ∧ y.mem = h ∧
      ScoreMem.run grow 0 sc ((xs.zip L).map fun q => ScoreOp.register s (instLabel N S v cats q.1) q.2) = some y.sc := by
  have hD := Holds.length hh
  have key := eval_loop (step := evaluatePosteriorStep N S v cats (Storer.new : Storer ι F).newTicket.1 L (D.length / 10) s grow)
    (P := fun I => (I v).isSome ∧ Evaluable N S v cats I) (Q := fun I p => p = instLabel N S v cats I)
    (tk := (Storer.new : Storer ι F).newTicket.1) (L := L) (n := D.length / 10) (s := s) (grow := grow) ?_
    D 0 ⟨h, (Storer.new : Storer ι F).newTicket.2, sc⟩ goodAt_new (by
      intro a ha
      obtain ⟨i, hi, rfl⟩ := List.getElem_of_mem ha
      obtain ⟨x, h1, h2⟩ := Holds.get hh (List.getElem?_eq_getElem hi)
      exact ⟨x, h2, hx x (List.mem_of_getElem? h1)⟩) (by simp; omega) hs (by omega)
  · obtain ⟨ps, x', k1, k2, k3, k4, k5⟩ := key
    refine ⟨x', k3, k4, ?_⟩
    have hps : ps = xs.map (instLabel N S v cats) := by
      apply List.ext_getElem?
      intro i
      by_cases hi : i < D.length
      · obtain ⟨x, h1, h2⟩ := Holds.get hh (List.getElem?_eq_getElem hi)
        have := k2 i D[i] x ps[i] (List.getElem?_eq_getElem hi) h2 (List.getElem?_eq_getElem (by omega))
        rw [List.getElem?_eq_getElem (by omega), this, List.getElem?_map, h1]; rfl
      · rw [List.getElem?_eq_none (by omega), List.getElem?_eq_none (by simp; omega)]
    rw [hps] at k5
    simp only [List.drop_zero] at k5
    rw [← k5]
    congr 1
    rw [List.zip_map_left, List.map_map]
    rfl
  · rintro x a i I e hg hI ⟨hIv, hev⟩ he hs hn
    obtain ⟨st1, st2, mp, pe, g1, g2, g3, g4⟩ := instLabel_loop hN hev hI hg
    have halt : a < x.mem.length := (List.getElem?_eq_some_iff.1 hI).1
    obtain ⟨sc', hsc, _⟩ := register_some (grow i) x.sc s hs (instLabel N S v cats I) e
    refine ⟨_, st2.reset _, sc', rfl, g3.reset, hsc, ?_⟩
    unfold evaluatePosteriorStep
    rw [if_neg hn]
    simp only [hI, Option.bind_some, Mem.delete, Option.map_some, List.getElem?_set_self halt, g1, g2, he, Option.getD_some, g4, hsc, Mem.put, del_set, set_get_self hIv, List.set_set]
    congr 2
    apply List.ext_getElem?
    intro j
    rw [List.getElem?_set]
    split
    · rename_i e; subst e; rw [hI]
    · rfl

theorem ConcStep.toQ {N : Net ι F} {S : ι} {v cats : Int} {n s : Nat} {grow : Nat → Nat → Nat → Nat} {G : Groups} {q q' : QState} {x x' : ConcEval ι F} {e : Option QEvent}
    (h : ConcStep N S v cats n s grow G q x e q' x') : QStep q e q' ∨ (e = none ∧ q' = q) := by
  cases h with
  | quiet h _ => exact Or.inl h
  | inst => exact Or.inr ⟨rfl, rfl⟩
  | finish h => exact Or.inl h

theorem ConcRun.toQRun {N : Net ι F} {S : ι} {v cats : Int} {n s : Nat} {grow : Nat → Nat → Nat → Nat} {G : Groups} {q q' : QState} {x x' : ConcEval ι F} {t : List QEvent}
    (h : ConcRun N S v cats n s grow G q x t q' x') : QRun q t q' := by
  induction h with
  | nil => exact .nil _
  | step _ hs ih =>
    rcases hs.toQ with h1 | ⟨rfl, rfl⟩
    · exact .step ih h1
    · simpa using ih

theorem goIdx_some {α : Type} {l : List α} {i : Int} {a : α} (h : goIdx l i = some a) : ∃ k : Nat, i = (k : Int) ∧ l[k]? = some a := by
  unfold goIdx at h
  split at h
  · cases h
  · exact ⟨i.toNat, by omega, h⟩

theorem goIdx_natCast {α : Type} (l : List α) (k : Nat) : goIdx l (k : Int) = l[k]? := by
  simp [goIdx]

/-- An address of one group is in no other place. -/
theorem flatten_nodup_get {α : Type} {G : List (List α)} (h : G.flatten.Nodup) {i i' j j' : Nat} {g g' : List α} {a : α} (hg : G[i]? = some g) (hg' : G[i']? = some g') (ha : g[j]? = some a)
    (ha' : g'[j']? = some a) : i = i' ∧ j = j' := by
  rw [List.nodup_flatten] at h
  have hi : i = i' := by
    by_contra hne
    obtain ⟨h1, h2⟩ := h
    rw [List.pairwise_iff_getElem] at h2
    obtain ⟨l1, e1⟩ := List.getElem?_eq_some_iff.1 hg
    obtain ⟨l2, e2⟩ := List.getElem?_eq_some_iff.1 hg'
    rcases Nat.lt_or_gt_of_ne hne with hlt | hlt
    · have := h2 i i' l1 l2 hlt
      rw [e1, e2] at this
      exact this (List.mem_of_getElem? ha) (List.mem_of_getElem? ha')
    · have := h2 i' i l2 l1 hlt
      rw [e1, e2] at this
      exact this (List.mem_of_getElem? ha') (List.mem_of_getElem? ha)
  subst hi
  rw [hg] at hg'
  cases hg'
  refine ⟨rfl, ?_⟩
  have hnd := h.1 g (List.mem_of_getElem? hg)
  obtain ⟨l1, e1⟩ := List.getElem?_eq_some_iff.1 ha
  obtain ⟨l2, e2⟩ := List.getElem?_eq_some_iff.1 ha'
  exact (hnd.getElem_inj_iff).1 (e1.trans e2.symm)

/-- What holds throughout: of every group a part is done; the instances that are left are as they were, as is everything outside the groups; the predictions registered are those of the parts that are done. -/
structure ConcInv (N : Net ι F) (S : ι) (v cats : Int) (s : Nat) (grow : Nat → Nat → Nat → Nat) (G : Groups) (out : List (List (VarSet × Int))) (sc : ScoreMem) (t : List QEvent) (x : ConcEval ι F) : Prop where
  pos : ∀ (k : Nat) (g : List Addr), G.data[k]? = some g → x.pos k ≤ g.length
  ended : ∀ (c i : Nat) (id : Int), QEvent.finish c i id ∈ t → ∃ g, goIdx G.data id = some g ∧ x.pos id = g.length
  good : ∀ id, GoodAt (Storer.new : Storer ι F).newTicket.1 (x.st id)
  left : ∀ (k j : Nat) (g : List Addr) (a : Addr), G.data[k]? = some g → g[j]? = some a → x.pos k ≤ j → x.mem[a]? = G.mem[a]?
  outside : ∀ a, a ∉ G.data.flatten → x.mem[a]? = G.mem[a]?
  logged : (x.log : Multiset (Int × Int)) = ∑ k ∈ Finset.range G.data.length, ((((out[k]?).getD []).map fun p => (instLabel N S v cats p.1, p.2)).take (x.pos k) : Multiset (Int × Int))
  scores : ScoreMem.run grow 0 sc (x.log.map fun p => ScoreOp.register s p.1 p.2) = some x.sc
  objs : s < x.sc.objs.length

theorem score_run_append {grow : Nat → Nat → Nat → Nat} (a : List ScoreOp) (op : ScoreOp) : ∀ (t : Nat) (m m' : ScoreMem), ScoreMem.run grow t m a = some m' →
    ScoreMem.run grow t m (a ++ [op]) = m'.step (grow (t + a.length)) op := by
  induction a with
  | nil =>
    intro t m m' h
    simp only [ScoreMem.run, Option.some.injEq] at h
    subst h
    simp only [List.nil_append, ScoreMem.run, List.length_nil, Nat.add_zero]
    cases m.step (grow t) op <;> rfl
  | cons b a ih =>
    intro t m m' h
    simp only [ScoreMem.run] at h
    obtain ⟨m1, h1, h2⟩ := Option.bind_eq_some_iff.1 h
    simp only [List.cons_append, ScoreMem.run, h1, Option.bind_some]
    rw [ih (t + 1) m1 m' h2]
    congr 2
    simp; omega

section Inv
variable {N : Net ι F} {S : ι} {v cats : Int} {n s : Nat} {grow : Nat → Nat → Nat → Nat} {h : Mem} {G : Groups} {out : List (List (VarSet × Int))} {sc : ScoreMem}

theorem ConcInv.start (hs : s < sc.objs.length) : ConcInv N S v cats s grow G out sc [] (.start G sc) where
  pos := by intro k g _; simp [ConcEval.start]
  ended := by simp
  good := fun _ => goodAt_new
  left := fun _ _ _ _ _ _ _ => rfl
  outside := fun _ _ => rfl
  logged := by simp [ConcEval.start]
  scores := rfl
  objs := hs

/-- The instance and the label at a place of a group. -/
theorem GroupsAre.at_place (hG : GroupsAre h G out) {k j : Nat} {g : List Addr} {a : Addr} (hg : G.data[k]? = some g) (ha : g[j]? = some a) :
    ∃ o p l, out[k]? = some o ∧ o[j]? = some p ∧ G.mem[a]? = some p.1 ∧ G.labels[k]? = some l ∧ l[j]? = some p.2 ∧ o.length = g.length := by
  obtain ⟨h1, h2, h3⟩ := hG
  have hl := h1.length_eq
  have hk := (List.getElem?_eq_some_iff.1 hg).1
  have hko : k < out.length := by omega
  have hh : Holds G.mem g (out[k].map Prod.fst) := by
    have := (List.forall₂_iff_get.1 h1).2 k hk hko
    simp only [List.get_eq_getElem] at this
    rw [(List.getElem?_eq_some_iff.1 hg).2] at this
    exact this
  obtain ⟨x, e1, e2⟩ := Holds.get hh ha
  rw [List.getElem?_map] at e1
  obtain ⟨p, e3, rfl⟩ := Option.map_eq_some_iff.1 e1
  refine ⟨out[k], p, out[k].map Prod.snd, List.getElem?_eq_getElem hko, e3, e2, ?_, ?_, ?_⟩
  · rw [h2, List.getElem?_map, List.getElem?_eq_getElem hko]; rfl
  · rw [List.getElem?_map, e3]; rfl
  · have := Holds.length hh
    simpa using this.symm

theorem ConcInv.step (hN : EvalNet N S) (hG : GroupsAre h G out) (hev : ∀ o ∈ out, ∀ p ∈ o, Evaluable N S v cats p.1) (hn : n ≠ 0) {t : List QEvent} {q q' : QState} {x x' : ConcEval ι F} {e : Option QEvent}
    (hi : ConcInv N S v cats s grow G out sc t x) (hs : ConcStep N S v cats n s grow G q x e q' x') : ConcInv N S v cats s grow G out sc (t ++ e.toList) x' := by
  cases hs with
  | quiet hq hne =>
    refine { hi with ended := ?_ }
    intro c i id hm
    rcases List.mem_append.1 hm with hm | hm
    · exact hi.ended c i id hm
    · exact absurd (by simpa using hm) (hne c i id)
  | @finish _ _ c i id g lb hq hg hl hpos =>
    refine { hi with ended := ?_ }
    intro c' i' id' hm
    rcases List.mem_append.1 hm with hm | hm
    · exact hi.ended c' i' id' hm
    · simp only [Option.toList_some, List.mem_singleton, QEvent.finish.injEq] at hm
      obtain ⟨_, _, rfl⟩ := hm
      exact ⟨g, hg, hpos⟩
  | @inst _ w c i id g lb a e p y hw hg hl ha he hst =>
    obtain ⟨k, rfl, hk⟩ := goIdx_some hg
    rw [goIdx_natCast] at hl
    obtain ⟨o, pr, l, f1, f2, f3, f4, f5, f6⟩ := GroupsAre.at_place hG hk ha
    rw [hl, Option.some.injEq] at f4
    subst f4
    rw [he, Option.some.injEq] at f5
    subst f5
    have hma : x.mem[a]? = some pr.1 := by rw [hi.left k _ g a hk ha (le_refl _), f3]
    obtain ⟨st', sc', g1, g2, g3⟩ := concEvalStep_good hN (tk := (Storer.new : Storer ι F).newTicket.1) (n := n) (grow := grow x.log.length) (x := ⟨x.mem, x.st k, x.sc⟩) (e := pr.2)
      (hev o (List.mem_of_getElem? f1) pr (List.mem_of_getElem? f2)) hma (hi.good k) hi.objs hn
    rw [hst, Option.some.injEq, Prod.mk.injEq] at g3
    obtain ⟨rfl, rfl⟩ := g3
    have hpl : x.pos k < g.length := (List.getElem?_eq_some_iff.1 ha).1
    have hnd : G.data.flatten.Nodup := hG.2.2.2.1
    have hmem : a ∈ G.data.flatten := List.mem_flatten.2 ⟨g, List.mem_of_getElem? hk, List.mem_of_getElem? ha⟩
    refine ⟨?_, ?_, ?_, ?_, ?_, ?_, ?_, ?_⟩
    · intro k' g' hg'
      simp only [Function.update_apply]
      split
      · rename_i e
        have : k' = k := by exact_mod_cast e
        subst this
        rw [hk] at hg'; cases hg'
        omega
      · exact hi.pos k' g' hg'
    · intro c' i' id' hm
      simp only [Option.toList_none, List.append_nil] at hm
      obtain ⟨g', h1, h2⟩ := hi.ended c' i' id' hm
      refine ⟨g', h1, ?_⟩
      simp only [Function.update_apply]
      split
      · rename_i e
        subst e
        rw [hg] at h1; cases h1
        omega
      · exact h2
    · intro id'
      simp only [Function.update_apply]
      split
      · exact g1
      · exact hi.good id'
    · intro k' j g' b hg' hb hle
      have hne : b ≠ a := by
        rintro rfl
        obtain ⟨rfl, rfl⟩ := flatten_nodup_get hnd hg' hk hb ha
        simp at hle
      simp only
      rw [List.getElem?_set_ne (Ne.symm hne)]
      refine hi.left k' j g' b hg' hb ?_
      simp only [Function.update_apply] at hle
      split at hle
      · rename_i e; rw [e]; omega
      · exact hle
    · intro b hb
      have hne : b ≠ a := by rintro rfl; exact hb hmem
      simp only
      rw [List.getElem?_set_ne (Ne.symm hne)]
      exact hi.outside b hb
    · have hkr : k ∈ Finset.range G.data.length := Finset.mem_range.2 (List.getElem?_eq_some_iff.1 hk).1
      simp only
      rw [← Multiset.coe_add, hi.logged, ← Finset.add_sum_erase _ _ hkr, ← Finset.add_sum_erase _ (fun k' : ℕ => ((((out[k']?).getD []).map fun p => (instLabel N S v cats p.1, p.2)).take
        (Function.update x.pos (k : Int) (x.pos k + 1) k') : Multiset (Int × Int))) hkr]
      have hrest : ∑ k' ∈ (Finset.range G.data.length).erase k, ((((out[k']?).getD []).map fun p => (instLabel N S v cats p.1, p.2)).take (Function.update x.pos (k : Int) (x.pos k + 1) k') : Multiset (Int × Int)) =
          ∑ k' ∈ (Finset.range G.data.length).erase k, ((((out[k']?).getD []).map fun p => (instLabel N S v cats p.1, p.2)).take (x.pos k') : Multiset (Int × Int)) := by
        apply Finset.sum_congr rfl
        intro k' hk'
        have : (k' : Int) ≠ k := by exact_mod_cast (Finset.mem_erase.1 hk').1
        rw [Function.update_of_ne this]
      rw [hrest, add_right_comm]
      congr 1
      rw [Function.update_self, f1, Option.getD_some, List.take_add_one, List.getElem?_map, f2, Multiset.coe_add]
      rfl
    · simp only [List.map_append, List.map_cons, List.map_nil]
      rw [score_run_append _ _ _ _ _ hi.scores]
      simpa [ScoreMem.step] using g2
    · obtain ⟨m', h1, h2⟩ := register_some (grow x.log.length) x.sc s hi.objs (instLabel N S v cats pr.1) pr.2
      rw [g2, Option.some.injEq] at h1
      subst h1
      have := hi.objs
      simp only
      omega

theorem ConcInv.run (hN : EvalNet N S) (hG : GroupsAre h G out) (hev : ∀ o ∈ out, ∀ p ∈ o, Evaluable N S v cats p.1) (hn : n ≠ 0) (hs : s < sc.objs.length) {q0 q : QState} {t : List QEvent} {x : ConcEval ι F}
    (hr : ConcRun N S v cats n s grow G q0 (.start G sc) t q x) : ConcInv N S v cats s grow G out sc t x := by
  generalize hx0 : ConcEval.start G sc = x0 at hr
  induction hr with
  | nil => subst hx0; exact .start hs
  | step _ h1 ih => exact (ih hx0).step hN hG hev hn h1

end Inv

/-- What a step does to the calls a caller has still to make. -/
theorem QStep.prog {s s' : QState} {e : Option QEvent} (h : QStep s e s') (i : Nat) (c' : Caller) (hc : s'.callers[i]? = some c') :
    ∃ c, s.callers[i]? = some c ∧ (c'.prog = c.prog ∨ (c'.pc = .idle ∧ ∃ cmd, c.prog = cmd :: c'.prog)) := by
  have hset : ∀ (k : Nat) (a b : Caller), s.callers[k]? = some a → (s.callers.set k b)[i]? = some c' → (b.prog = a.prog ∨ (b.pc = .idle ∧ ∃ cmd, a.prog = cmd :: b.prog)) →
      ∃ c, s.callers[i]? = some c ∧ (c'.prog = c.prog ∨ (c'.pc = .idle ∧ ∃ cmd, c.prog = cmd :: c'.prog)) := by
    intro k a b ha hi hab
    rw [List.getElem?_set] at hi
    by_cases hk : k = i
    · subst hk
      have hlt := (List.getElem?_eq_some_iff.1 ha).1
      simp [hlt] at hi
      subst hi
      exact ⟨a, ha, hab⟩
    · rw [if_neg hk] at hi
      exact ⟨c', hi, Or.inl rfl⟩
  cases h with
  | go k j r q h1 => exact hset k _ _ h1 hc (Or.inr ⟨rfl, _, rfl⟩)
  | lock k j r q h1 _ => exact hset k _ _ h1 hc (Or.inl rfl)
  | full k p q h1 _ => exact hset k _ _ h1 hc (Or.inl rfl)
  | count k p q h1 _ => exact hset k _ _ h1 hc (Or.inl rfl)
  | park k p q b h1 => exact hset k _ _ h1 hc (Or.inl rfl)
  | relock k p q h1 _ => exact hset k _ _ h1 hc (Or.inl rfl)
  | unlock k p q h1 => exact hset k _ _ h1 hc (Or.inl rfl)
  | add k p q h1 => exact hset k _ _ h1 hc (Or.inl rfl)
  | wait k r q h1 => exact hset k _ _ h1 hc (Or.inl rfl)
  | zero k p q h1 _ => exact hset k _ _ h1 hc (Or.inl rfl)
  | waitRet k r q h1 => exact hset k _ _ h1 hc (Or.inr ⟨rfl, _, rfl⟩)
  | signal w c q j k cl _ h1 _ => exact hset k _ _ h1 hc (Or.inl rfl)
  | start => exact ⟨c', hc, Or.inl rfl⟩
  | finish => exact ⟨c', hc, Or.inl rfl⟩
  | wlock => exact ⟨c', hc, Or.inl rfl⟩
  | dec => exact ⟨c', hc, Or.inl rfl⟩
  | wunlock => exact ⟨c', hc, Or.inl rfl⟩
  | signalNone => exact ⟨c', hc, Or.inl rfl⟩
  | wgDone => exact ⟨c', hc, Or.inl rfl⟩

/-- An execution in which at most the last call is left has passed the moment before that call. -/
theorem imgRun_wait {n : Int} {ndata : Nat} {t : List QEvent} {s : QState} (h : QRun (QState.init n [imgProg ndata]) t s) (c : Caller) (hc : s.callers[0]? = some c) :
    c.prog <:+ imgProg ndata ∧ (c.prog.length ≤ 1 → ∃ t1 t2 s1, QRun (QState.init n [imgProg ndata]) t1 s1 ∧ QRun s1 t2 s ∧ t = t1 ++ t2 ∧ ∃ k, s1.callers[0]? = some ⟨[.wait], .idle, k⟩) := by
  induction h generalizing c with
  | nil =>
    simp only [QState.init, List.map_cons, List.map_nil, List.getElem?_cons_zero, Option.some.injEq] at hc
    subst hc
    refine ⟨List.suffix_refl _, ?_⟩
    intro hle
    have : ndata = 0 := by simp [imgProg] at hle; omega
    subst this
    exact ⟨[], [], _, .nil _, .nil _, rfl, 0, rfl⟩
  | @step s' s'' t e hr hs ih =>
    obtain ⟨c0, h1, h2⟩ := hs.prog 0 c hc
    obtain ⟨k1, k2⟩ := ih c0 h1
    have hsuf : c.prog <:+ imgProg ndata := by
      rcases h2 with h2 | ⟨_, cmd, h2⟩
      · rw [h2]; exact k1
      · rw [h2] at k1
        exact (List.suffix_cons _ _).trans k1
    refine ⟨hsuf, ?_⟩
    intro hle
    by_cases hle0 : c0.prog.length ≤ 1
    · obtain ⟨t1, t2, s1, m1, m2, m3, m4⟩ := k2 hle0
      exact ⟨t1, t2 ++ e.toList, s1, m1, .step m2 hs, by rw [m3, List.append_assoc], m4⟩
    · rcases h2 with h2 | ⟨hid, cmd, h2⟩
      · rw [h2] at hle; omega
      · have hl : c.prog.length = 1 := by have := congrArg List.length h2; rw [List.length_cons] at this; omega
        refine ⟨t ++ e.toList, [], s'', .step hr hs, .nil _, by simp, c.seq, ?_⟩
        have hp : c.prog = [.wait] := by
          obtain ⟨pre, hpre⟩ := hsuf
          match hcp : c.prog, hl with
          | [b], _ =>
            rw [hcp, imgProg] at hpre
            have := (List.append_inj' hpre rfl).2
            exact this
        rw [hc]
        cases c
        simp_all

/-- When the caller has nothing left to do, all jobs have ended. -/
theorem imgRun_returned {n cpu : Int} (hcpu : 0 < cpu) {ndata : Nat} {t : List QEvent} {s : QState} (h : QRun (QState.init (queueSize n cpu) [imgProg ndata]) t s) (hc : ∀ c ∈ s.callers, c.prog = [])
    {id : Nat} (hid : id < ndata) : QEvent.finish 0 id (id : Int) ∈ t := by
  have hlen : s.callers.length = 1 := by simpa using (JobInv.run h).len
  have hc0 : s.callers[0]? = some s.callers[0] := List.getElem?_eq_getElem (by omega)
  have hp := hc _ (List.mem_of_getElem? hc0)
  obtain ⟨t1, t2, s1, m1, m2, rfl, k, m4⟩ := (imgRun_wait h _ hc0).2 (by rw [hp]; simp)
  have hk : k = ndata := by
    have h1 := (JobInv.run m1).rest 0 _ m4 (imgProg ndata) rfl
    rw [imgProg_ids] at h1
    have := congrArg List.length h1
    simp [runIds] at this
    have h2 := imgRun_seq_le m1 _ m4
    simp at h2
    omega
  have := C16_wait n cpu hcpu [imgProg ndata] t1 t2 s1 s m1 0 [] k m4 m2 _ hc0 (by rw [hp]) 0 id id ((imgProg_submitted ndata 0 id id).2 ⟨rfl, rfl, hid⟩) _ m4 (by simp [hk, hid])
  exact List.count_pos_iff.1 (by omega)

end Gospn
