/-
The evaluation loops.
-/
import Verif.Model.Evaluate
import Verif.Proofs.Infer
import Verif.Proofs.MapStore
import Verif.Proofs.Score
import Verif.Props.Infer

set_option linter.unusedSectionVars false
set_option linter.unusedSimpArgs false

namespace Gospn
open Spec GoFloat
variable {ι F : Type} [GoFloat F] [DecidableEq ι] [Fintype ι]

/-- A well-formed storage with a table for the ticket. -/
def GoodAt (tk : Int) (st : Storer ι F) : Prop := st.WF ∧ 0 ≤ tk ∧ st.table tk ≠ none

theorem GoodAt.reset {tk : Int} {st : Storer ι F} (h : GoodAt tk st) : GoodAt tk (st.reset tk) :=
  ⟨Storer.reset_wf h.1 tk, h.2.1, by simp [Storer.reset, Storer.makeAt, Storer.table]⟩

theorem goodAt_new : GoodAt (Storer.new : Storer ι F).newTicket.1 (Storer.new : Storer ι F).newTicket.2 :=
  ⟨Storer.newTicket_wf Storer.new_wf, by simp [Storer.newTicket, Storer.new], by simp [Storer.newTicket, Storer.makeAt, Storer.table]⟩

theorem GoodAt.frame {tk : Int} {st st' : Storer ι F} (h : GoodAt tk st) {a : Nat} {l : List ι} (hf : FrameAt a l st st') : GoodAt tk st' :=
  ⟨hf.wf h.1, h.2.1, by simpa [Storer.table, hf.tables] using h.2.2⟩

/-- `StoreInference` on such a storage. -/
theorem storeInference_good {N : Net ι F} {S : ι} {I : VarSet} (hac : Acyclic N.ch) (hso : SiblingOrdered N.ch S) (hS : N.ch S ≠ [])
    (hne : ∀ n cs w, N.kind n = .sum cs w → cs ≠ []) {tk : Int} {st : Storer ι F} (hg : GoodAt tk st) {x : F} (hx : N.value I S = some x) :
    ∃ st', N.storeInference S I tk st = some (some (S, tk), st') ∧ GoodAt tk st' ∧ st'.single tk S = some x := by
  obtain ⟨a, ha⟩ := Option.ne_none_iff_exists'.1 hg.2.2
  have hol := N.order_lists S
  have hun : N.storeInference S I tk st = match N.storeInfLoop I (st.table tk) st (N.order S) with
    | none => none
    | some (st', false) => some (none, st')
    | some (st', true) => some (some (S, tk), st') := by
    unfold Net.storeInference
    rw [if_neg (by simpa using hS), if_neg (by have := hg.2.1; omega)]
    rfl
  rw [hun, ha]
  rcases Net.storeInfLoop_spec hne (fun n => Net.value_unfold hac I n) a [] (N.order S) st
      (by simpa using Net.order_childrenFirst hac hso) (by simp) with ⟨st', g1, g2, g3⟩ | ⟨g1, n, hn, g2⟩
  · obtain ⟨f1, f2, f3⟩ := frame_entries hg.1 ha g3
    refine ⟨st', by rw [g1], hg.frame g3, ?_⟩
    have := g2 S (by simpa using (hol.2 S).2 Relation.ReflTransGen.refl)
    show st'.entry tk S 0 = some x
    rw [f3 S, this.1, hx]
  · have := Net.value_none_up hac ((hol.2 n).1 hn) g2
    rw [hx] at this
    cases this

/-- `StoreMAP` on such a storage. -/
theorem storeMAP_good {N : Net ι F} {S : ι} {I : VarSet} (hac : Acyclic N.ch) (hso : SiblingOrdered N.ch S) (hS : N.ch S ≠ [])
    {tk : Int} {st : Storer ι F} (hg : GoodAt tk st) (pick : ι → Nat → Nat) (hm : N.max I S ≠ none) :
    ∃ st' get, GoodAt tk st' ∧ (∀ n, Reach N.ch S n → N.max I n = some (get n)) ∧
      N.storeMAP S I tk st pick = (work (N.mapStateStep I get pick) false S (fun _ => none)).map fun M => (some (S, tk, M), st') := by
  obtain ⟨a, ha⟩ := Option.ne_none_iff_exists'.1 hg.2.2
  have hun : N.storeMAP S I tk st pick =
      ((N.order S).foldlM (N.storeMapStep I (st.table tk)) st).bind fun st' =>
        (work (N.mapStateStep I (fun c' => ((st'.deref (st.table tk)).entry c' 0).getD (ofInt 0)) pick) false S
          (fun _ => none)).map fun M => (some (S, tk, M), st') := by
    unfold Net.storeMAP
    rw [if_neg (by simpa using hS), if_neg (by have := hg.2.1; omega)]
  rw [hun, ha]
  rcases Net.storeMap_fold hac (I := I) (Net.order_childrenFirst hac hso) a st with ⟨st1, g1, g2, g3⟩ | ⟨g1, g2⟩
  · rw [g1]
    refine ⟨st1, _, hg.frame g3, ?_, rfl⟩
    intro n hn
    have h := g2 n hn
    have he : (st1.deref (some a)).entry n 0 = N.max I n := h.1
    obtain ⟨x, hx⟩ := Option.isSome_iff_exists.1 h.2
    rw [he, hx]; rfl
  · exact absurd g2 hm

theorem set_get_self {I : VarSet} {v : Int} (h : (I v).isSome) : I.set v (I.get v) = I := by
  obtain ⟨x, hx⟩ := Option.isSome_iff_exists.1 h
  funext k
  by_cases hk : k = v
  · subst hk; simp [VarSet.set, VarSet.get, hx]
  · simp [VarSet.set, hk]

theorem del_set (I : VarSet) (v x : Int) : (I.del v).set v x = I.set v x := by
  funext k; by_cases hk : k = v <;> simp [VarSet.set, VarSet.del, hk]

theorem set_del (I : VarSet) (v x : Int) : (I.set v x).del v = I.del v := by
  funext k; by_cases hk : k = v <;> simp [VarSet.set, VarSet.del, hk]

theorem del_del (I : VarSet) (v : Int) : (I.del v).del v = I.del v := by
  funext k; by_cases hk : k = v <;> simp [VarSet.del, hk]

theorem set_set (I : VarSet) (v x y : Int) : (I.set v x).set v y = I.set v y := by
  funext k; by_cases hk : k = v <;> simp [VarSet.set, hk]

theorem register_some (grow : Nat → Nat → Nat) (m : ScoreMem) (s : Nat) (hs : s < m.objs.length) (p e : Int) :
    ∃ m', m.register grow s p e = some m' ∧ m'.objs.length = m.objs.length := by
  unfold ScoreMem.register
  rw [List.getElem?_eq_getElem hs]
  exact ⟨_, rfl, by simp⟩

/-- The loop over the test data, for either kind of evaluation. -/
theorem eval_loop {step : EvalState ι F → Addr × Nat → Option (EvalState ι F)} {P : VarSet → Prop} {Q : VarSet → Int → Prop} {tk : Int} {L : List Int} {n s : Nat}
    {grow : Nat → Nat → Nat → Nat}
    (hstep : ∀ (x : EvalState ι F) (a i : Nat) (I : VarSet) (e : Int), GoodAt tk x.st → x.mem[a]? = some I → P I → L[i]? = some e → s < x.sc.objs.length → ¬ (0 < i ∧ n = 0) →
      ∃ p st' sc', Q I p ∧ GoodAt tk st' ∧ x.sc.register (grow i) s p e = some sc' ∧ step x (a, i) = some ⟨x.mem, st', sc'⟩) :
    ∀ (T : List Addr) (i : Nat) (x : EvalState ι F), GoodAt tk x.st → (∀ a ∈ T, ∃ I, x.mem[a]? = some I ∧ P I) → i + T.length ≤ L.length → s < x.sc.objs.length →
      (n = 0 → i + T.length ≤ 1) →
      ∃ (ps : List Int) (x' : EvalState ι F), ps.length = T.length ∧ (∀ (k : Nat) (a : Addr) (I : VarSet) (p : Int), T[k]? = some a → x.mem[a]? = some I → ps[k]? = some p → Q I p) ∧
        (T.zipIdx i).foldlM step x = some x' ∧ x'.mem = x.mem ∧ ScoreMem.run grow i x.sc ((ps.zip (L.drop i)).map fun q => ScoreOp.register s q.1 q.2) = some x'.sc := by
  intro T
  induction T with
  | nil =>
    intro i x _ _ _ _ _
    exact ⟨[], x, rfl, by simp, rfl, rfl, rfl⟩
  | cons a T ih =>
    intro i x hg hT hL hs hn
    obtain ⟨I, hI, hP⟩ := hT a (by simp)
    have hi : i < L.length := by simp at hL; omega
    obtain ⟨p, st', sc', hQ, hg', hr, he⟩ := hstep x a i I L[i] hg hI hP (List.getElem?_eq_getElem hi) hs (by
      rintro ⟨h1, h2⟩
      have := hn h2
      simp at this
      omega)
    have hs' : s < sc'.objs.length := by
      obtain ⟨m', h1, h2⟩ := register_some (grow i) x.sc s hs p L[i]
      rw [hr] at h1
      cases h1
      omega
    obtain ⟨ps, x', k1, k2, k3, k4, k5⟩ := ih (i + 1) ⟨x.mem, st', sc'⟩ hg' (fun b hb => hT b (by simp [hb])) (by simp at hL; omega) hs'
      (fun h => by have := hn h; simp at this ⊢; omega)
    refine ⟨p :: ps, x', by simp [k1], ?_, ?_, k4, ?_⟩
    · intro k b J q h1 h2 h3
      cases k with
      | zero =>
        simp only [List.getElem?_cons_zero, Option.some.injEq] at h1 h3
        subst h1 h3
        rw [hI] at h2
        cases h2
        exact hQ
      | succ k =>
        simp only [List.getElem?_cons_succ] at h1 h3
        exact k2 k b J q h1 h2 h3
    · rw [List.zipIdx_cons, List.foldlM_cons, he]
      exact k3
    · rw [List.drop_eq_getElem_cons hi, List.zip_cons_cons, List.map_cons]
      simp only [ScoreMem.run, ScoreMem.step, hr, Option.bind_some]
      exact k5

/-- The inner loop over the classes leaves the memory as it was and finds the first class with the greatest difference. -/
def postClass (val : Nat → F) (pe : F) : List Nat → F × Int → F × Int
  | [], acc => acc
  | j :: js, acc => postClass val pe js (if lt acc.1 (sub (val j) pe) then (sub (val j) pe, (j : Int)) else acc)

theorem posterior_loop {N : Net ι F} {S : ι} (hac : Acyclic N.ch) (hso : SiblingOrdered N.ch S) (hS : N.ch S ≠ []) (hne : ∀ n cs w, N.kind n = .sum cs w → cs ≠ [])
    {v tk : Int} {a : Addr} {pe : F} {J : VarSet} (hJ : J v = none) {val : Nat → F} : ∀ (js : List Nat) (y : PostState ι F), GoodAt tk y.st → y.mem[a]? = some J →
      (∀ j ∈ js, N.value (J.set v (j : Int)) S = some (val j)) →
      ∃ st', GoodAt tk st' ∧ js.foldlM (posteriorStep N S v tk a pe) y = some ⟨y.mem, st', (postClass val pe js (y.mp, y.ml)).1, (postClass val pe js (y.mp, y.ml)).2⟩ := by
  intro js
  induction js with
  | nil => intro y hg _ _; exact ⟨y.st, hg, rfl⟩
  | cons j js ih =>
    intro y hg hy hv
    have halt : a < y.mem.length := (List.getElem?_eq_some_iff.1 hy).1
    obtain ⟨st1, g1, g2, g3⟩ := storeInference_good hac hso hS hne hg.reset (hv j (by simp))
    have hdel : (J.set v (j : Int)).del v = J := by
      rw [set_del]
      funext k
      by_cases hk : k = v
      · subst hk; simp [VarSet.del, hJ]
      · simp [VarSet.del, hk]
    have hmem : (y.mem.set a (J.set v (j : Int))).set a J = y.mem := by
      rw [List.set_set]
      apply List.ext_getElem?
      intro i
      rw [List.getElem?_set]
      split
      · rename_i e; subst e; rw [hy]
      · rfl
    have hstep : posteriorStep N S v tk a pe y j =
        some ⟨y.mem, st1, (if lt y.mp (sub (val j) pe) then (sub (val j) pe, (j : Int)) else (y.mp, y.ml)).1,
          (if lt y.mp (sub (val j) pe) then (sub (val j) pe, (j : Int)) else (y.mp, y.ml)).2⟩ := by
      unfold posteriorStep
      simp only [Mem.put, hy, Option.map_some, Option.bind_some, List.getElem?_set_self halt, g1, g3, Option.getD_some, Mem.delete, hdel, hmem]
      split <;> rfl
    rw [List.foldlM_cons, hstep]
    simp only [bind, Option.bind_some]
    exact ih ⟨y.mem, st1, (if lt y.mp (sub (val j) pe) then (sub (val j) pe, (j : Int)) else (y.mp, y.ml)).1,
      (if lt y.mp (sub (val j) pe) then (sub (val j) pe, (j : Int)) else (y.mp, y.ml)).2⟩ g2 hy (fun i hi => hv i (by simp [hi]))

end Gospn
