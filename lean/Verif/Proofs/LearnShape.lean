import Verif.Proofs.LearnBatch
/-
What the learning loops leave alone, for any floating point arithmetic.
-/
set_option linter.unusedSectionVars false
set_option linter.unusedSimpArgs false
namespace Gospn
open Spec GoFloat

variable {ι F : Type} [DecidableEq ι]

/-- `st'` differs from `st` only in rows of nodes with `R` in the table at `a`. -/
structure Writes (a : Nat) (R : ι → Prop) (st st' : Storer ι F) : Prop where
  tables : st'.tables = st.tables
  next : st'.next = st.next
  others : ∀ b, b ≠ a → st'.heap b = st.heap b
  rows : ∀ n, ¬ R n → st'.heap a n = st.heap a n
  ok : (∀ b, (st.heap b).OK) → ∀ b, (st'.heap b).OK

theorem Writes.refl (a : Nat) (R : ι → Prop) (st : Storer ι F) : Writes a R st st := ⟨rfl, rfl, fun _ _ => rfl, fun _ _ => rfl, id⟩

theorem Writes.trans {a : Nat} {R : ι → Prop} {x y z : Storer ι F} (h1 : Writes a R x y) (h2 : Writes a R y z) : Writes a R x z :=
  ⟨h2.tables.trans h1.tables, h2.next.trans h1.next, fun b hb => (h2.others b hb).trans (h1.others b hb), fun n h => (h2.rows n h).trans (h1.rows n h), fun h => h2.ok (h1.ok h)⟩

theorem Writes.store {a : Nat} {R : ι → Prop} {st st' : Storer ι F} {s : ι} {i : Int} {v : F} (hs : R s) (h : st.tableStore (some a) s i v = some st') : Writes a R st st' := by
  simp only [Storer.tableStore, Option.some.injEq] at h
  subst h
  refine ⟨rfl, rfl, fun b hb => by simp [hb], fun n hn => ?_, fun h b => ?_⟩
  · have : n ≠ s := by rintro rfl; exact hn hs
    simp only [Function.update_self, Table.store]
    cases st.heap a s <;> simp [this]
  · by_cases hb : b = a
    · subst hb; simpa using Table.store_ok (h b) s i v
    · simpa [hb] using h b

theorem Writes.wf {a : Nat} {R : ι → Prop} {st st' : Storer ι F} (h : Writes a R st st') (hw : st.WF) : st'.WF :=
  ⟨fun k b hk => by rw [h.next]; rw [h.tables] at hk; exact hw.alloc k b hk, fun k k' b hk hk' => by rw [h.tables] at hk hk'; exact hw.inj k k' b hk hk', h.ok hw.ok⟩

theorem Writes.entry {a : Nat} {R : ι → Prop} {st st' : Storer ι F} (h : Writes a R st st') {k : Int} {n : ι} (hn : st.table k ≠ some a ∨ ¬ R n) (i : Int) :
    st'.entry k n i = st.entry k n i := by
  have ht : st'.tables k = st.tables k := by rw [h.tables]
  simp only [Storer.entry, ht]
  cases hk : st.tables k with
  | none => rfl
  | some b =>
    simp only
    by_cases hb : b = a
    · subst hb
      have : ¬ R n := hn.resolve_left (by simp [Storer.table, hk])
      simp only [Table.entry, h.rows n this]
    · rw [h.others b hb]

/-- Partial correctness of a fold. -/
theorem foldlM_keeps {σ α : Type} {P : σ → Prop} {f : σ → α → Option σ} : ∀ (l : List α) (x : σ), (∀ a ∈ l, ∀ x, P x → ∀ y, f x a = some y → P y) → P x →
    ∀ y, l.foldlM f x = some y → P y := by
  intro l
  induction l with
  | nil => intro x _ hx y h; simp only [List.foldlM_nil, Option.pure_def, Option.some.injEq] at h; exact h ▸ hx
  | cons a l ih =>
    intro x h hx y hy
    rw [List.foldlM_cons] at hy
    simp only [Option.bind_eq_bind, Option.bind_eq_some_iff] at hy
    obtain ⟨z, h1, h2⟩ := hy
    exact ih z (fun b hb => h b (by simp [hb])) (h a (by simp) x hx z h1) y h2

theorem epochs_keeps {σ : Type} {P : σ → Prop} {body : σ → Option σ} (h : ∀ x, P x → ∀ y, body x = some y → P y) (k : Int) (x : σ) (hx : P x) : ∀ y, epochs k body x = some y → P y :=
  foldlM_keeps _ x (fun _ _ => h) hx

theorem workLoop_keeps {σ : Type} {P : σ → Prop} {R : ι → Prop} {act : σ → ι → Option (σ × Option (List ι))}
    (h : ∀ x s, P x → R s → ∀ x' o, act x s = some (x', o) → P x' ∧ ∀ cs, o = some cs → ∀ c ∈ cs, R c) : ∀ (fuel : Nat) (C : Coll ι) (V : Finset ι) (x : σ), (∀ s ∈ C.items, R s) → P x →
    ∀ y, workLoop act fuel C V x = some y → P y := by
  intro fuel
  induction fuel with
  | zero => intro C V x _ hx y hy; simp only [workLoop, Option.some.injEq] at hy; exact hy ▸ hx
  | succ fuel ih =>
    intro C V x hC hx y hy
    unfold workLoop at hy
    cases hi : C.items with
    | nil => rw [hi] at hy; simp only [Option.some.injEq] at hy; exact hy ▸ hx
    | cons s rest =>
      rw [hi] at hy
      dsimp only at hy
      have hs : R s := hC s (by simp [hi])
      cases ha : act x s with
      | none => rw [ha] at hy; cases hy
      | some r =>
        obtain ⟨x', o⟩ := r
        rw [ha] at hy
        obtain ⟨h1, h2⟩ := h x s hx hs x' o ha
        cases o with
        | none => simp only [Option.some.injEq] at hy; exact hy ▸ h1
        | some cs =>
          dsimp only at hy
          refine ih _ _ x' ?_ h1 y hy
          intro c hc
          rcases mem_giveNew hc with hc | hc
          · exact hC c (by rw [hi]; exact List.mem_cons_of_mem _ hc)
          · exact h2 cs rfl c hc

theorem work_keeps [Fintype ι] {σ : Type} {P : σ → Prop} {R : ι → Prop} {act : σ → ι → Option (σ × Option (List ι))}
    (h : ∀ x s, P x → R s → ∀ x' o, act x s = some (x', o) → P x' ∧ ∀ cs, o = some cs → ∀ c ∈ cs, R c) {b : Bool} {S : ι} (hS : R S) {x : σ} (hx : P x) :
    ∀ y, work act b S x = some y → P y :=
  workLoop_keeps h _ _ _ x (by simpa using hS) hx

theorem reach_child {ch : ι → List ι} {S s c : ι} (hs : Reach ch S s) (hc : c ∈ ch s) : Reach ch S c := hs.tail hc

section
variable [GoFloat F] [Fintype ι]

/-! ### What each procedure writes -/

theorem storeInfLoop_writes {N : Net ι F} {R : ι → Prop} {I : VarSet} {a : Nat} : ∀ (l : List ι) (st st' : Storer ι F) (b : Bool), (∀ n ∈ l, R n) → N.storeInfLoop I (some a) st l = some (st', b) →
    Writes a R st st' := by
  intro l
  induction l with
  | nil => intro st st' b _ h; simp only [Net.storeInfLoop, Option.some.injEq, Prod.mk.injEq] at h; exact h.1 ▸ Writes.refl _ _ _
  | cons s l ih =>
    intro st st' b hl h
    have step : ∀ st1 b1, N.storeInfStep I (some a) st s = some (st1, b1) → Writes a R st st1 := by
      intro st1 b1 h1
      unfold Net.storeInfStep at h1
      have hs := hl s (by simp)
      cases hk : N.kind s with
      | leaf lf =>
        simp only [hk, Option.bind_eq_some_iff, Option.map_eq_some_iff] at h1
        obtain ⟨v, _, st2, h2, h3⟩ := h1
        cases h3
        exact Writes.store hs h2
      | product cs =>
        simp only [hk, Option.map_eq_some_iff] at h1
        obtain ⟨st2, h2, h3⟩ := h1
        cases h3
        exact Writes.store hs h2
      | sum cs w =>
        simp only [hk, Option.bind_eq_some_iff] at h1
        obtain ⟨r, _, h2⟩ := h1
        cases r with
        | none => simp only [Option.some.injEq, Prod.mk.injEq] at h2; exact h2.1 ▸ Writes.refl _ _ _
        | some vs =>
          simp only [Option.bind_eq_some_iff, Option.map_eq_some_iff] at h2
          obtain ⟨v, _, st2, h2, h3⟩ := h2
          cases h3
          exact Writes.store hs h2
    unfold Net.storeInfLoop at h
    cases hs : N.storeInfStep I (some a) st s with
    | none => rw [hs] at h; cases h
    | some r =>
      obtain ⟨st1, b1⟩ := r
      rw [hs] at h
      cases b1 with
      | false => simp only [Option.some.injEq, Prod.mk.injEq] at h; exact h.1 ▸ step _ _ hs
      | true => exact (step _ _ hs).trans (ih st1 st' b (fun n hn => hl n (by simp [hn])) h)

theorem storeInference_writes {N : Net ι F} {S : ι} {I : VarSet} {tk : Int} (h0 : 0 ≤ tk) {st : Storer ι F} {a : Nat} (ha : st.table tk = some a) {r : Option (ι × Int) × Storer ι F}
    (h : N.storeInference S I tk st = some r) : Writes a (Reach N.ch S) st r.2 := by
  unfold Net.storeInference at h
  split at h
  · cases h; exact Writes.refl _ _ _
  · rw [if_neg (by omega)] at h
    simp only [ha] at h
    have hl : ∀ n ∈ N.order S, Reach N.ch S n := fun n hn => ((N.order_lists S).2 n).1 hn
    split at h
    · cases h
    · rename_i st' he; cases h; exact storeInfLoop_writes _ _ _ _ hl he
    · rename_i st' he; cases h; exact storeInfLoop_writes _ _ _ _ hl he

theorem deriveStore_writes {R : ι → Prop} {a : Nat} {st st' : Storer ι F} {c : ι} {t : F} (hc : R c) (h : deriveStore (some a) st c t = some st') : Writes a R st st' := by
  unfold deriveStore at h
  split at h <;> exact Writes.store hc h

theorem deriveSPN_writes {N : Net ι F} {S : ι} {tk itk : Int} (h0 : 0 ≤ tk) {st : Storer ι F} {a : Nat} (ha : st.table tk = some a) {isStack : Bool} {r : Int × Storer ι F}
    (h : N.deriveSPN S st tk itk isStack = some r) : Writes a (Reach N.ch S) st r.2 := by
  unfold Net.deriveSPN at h
  have hn : newIfNeg tk st = (tk, st) := by unfold newIfNeg; rw [if_neg (by omega)]
  rw [hn] at h
  simp only [ha, Option.bind_eq_some_iff, Option.map_eq_some_iff] at h
  obtain ⟨st1, h1, st2, h2, rfl⟩ := h
  refine (Writes.store Relation.ReflTransGen.refl h1).trans ?_
  refine work_keeps (P := fun x => Writes a (Reach N.ch S) st1 x) (R := Reach N.ch S) ?_ Relation.ReflTransGen.refl (Writes.refl _ _ _) st2 h2
  intro x s hx hs x' o hact
  simp only [Option.map_eq_some_iff, Prod.mk.injEq] at hact
  obtain ⟨x'', h3, rfl, rfl⟩ := hact
  refine ⟨hx.trans ?_, fun cs hcs c hc => ?_⟩
  · unfold Net.deriveStep at h3
    cases hk : N.kind s with
    | leaf l => simp only [hk, Option.some.injEq] at h3; exact h3 ▸ Writes.refl _ _ _
    | sum cs w =>
      simp only [hk] at h3
      refine foldlM_keeps (P := fun y => Writes a (Reach N.ch S) x y) _ _ ?_ (Writes.refl _ _ _) _ h3
      rintro ⟨c, i⟩ hc y hy z hz
      simp only [Option.bind_eq_some_iff] at hz
      obtain ⟨wi, _, hz⟩ := hz
      refine hy.trans (deriveStore_writes (reach_child hs ?_) hz)
      simp only [Net.ch, hk]
      exact List.mem_of_getElem? (List.mk_mem_zipIdx_iff_getElem?.1 hc)
    | product cs =>
      simp only [hk] at h3
      refine foldlM_keeps (P := fun y => Writes a (Reach N.ch S) x y) _ _ ?_ (Writes.refl _ _ _) _ h3
      rintro ⟨c, i⟩ hc y hy z hz
      refine hy.trans (deriveStore_writes (reach_child hs ?_) hz)
      simp only [Net.ch, hk]
      exact List.mem_of_getElem? (List.mk_mem_zipIdx_iff_getElem?.1 hc)
  · cases hcs; exact reach_child hs (innerCh_sub hc).1

theorem deriveWeights_writes {N : Net ι F} {S : ι} {tk dtk itk : Int} (h0 : 0 ≤ tk) {st : Storer ι F} {a : Nat} (ha : st.table tk = some a) {isStack : Bool} {r : Int × Storer ι F}
    (h : N.deriveWeights S st tk dtk itk isStack = some r) : Writes a (Reach N.ch S) st r.2 := by
  unfold Net.deriveWeights at h
  have hn : newIfNeg tk st = (tk, st) := by unfold newIfNeg; rw [if_neg (by omega)]
  rw [hn] at h
  simp only [ha, Option.map_eq_some_iff] at h
  obtain ⟨st2, h2, rfl⟩ := h
  refine work_keeps (P := fun x => Writes a (Reach N.ch S) st x) (R := Reach N.ch S) ?_ Relation.ReflTransGen.refl (Writes.refl _ _ _) st2 h2
  intro x s hx hs x' o hact
  simp only [Option.map_eq_some_iff, Prod.mk.injEq] at hact
  obtain ⟨x'', h3, rfl, rfl⟩ := hact
  refine ⟨hx.trans ?_, fun cs hcs c hc => ?_⟩
  · unfold Net.deriveWStep at h3
    dsimp only at h3
    split at h3
    · refine foldlM_keeps (P := fun y => Writes a (Reach N.ch S) x y) _ _ ?_ (Writes.refl _ _ _) _ h3
      rintro ⟨c, i⟩ hc y hy z hz
      exact hy.trans (Writes.store hs hz)
    · cases h3; exact Writes.refl _ _ _
  · cases hcs; exact reach_child hs (innerCh_sub hc).1

theorem deriveWeightsBatch_writes {N : Net ι F} {S : ι} {tk dtk itk : Int} (h0 : 0 ≤ tk) {st : Storer ι F} {a : Nat} (ha : st.table tk = some a) {isStack : Bool} {r : Int × Storer ι F}
    (h : N.deriveWeightsBatch S st tk dtk itk isStack = some r) : Writes a (Reach N.ch S) st r.2 := by
  unfold Net.deriveWeightsBatch at h
  have hn : newIfNeg tk st = (tk, st) := by unfold newIfNeg; rw [if_neg (by omega)]
  rw [hn] at h
  simp only [ha, Option.map_eq_some_iff] at h
  obtain ⟨st2, h2, rfl⟩ := h
  refine work_keeps (P := fun x => Writes a (Reach N.ch S) st x) (R := Reach N.ch S) ?_ Relation.ReflTransGen.refl (Writes.refl _ _ _) st2 h2
  intro x s hx hs x' o hact
  simp only [Option.map_eq_some_iff, Prod.mk.injEq] at hact
  obtain ⟨x'', h3, rfl, rfl⟩ := hact
  refine ⟨hx.trans ?_, fun cs hcs c hc => ?_⟩
  · unfold Net.deriveWBStep at h3
    dsimp only at h3
    split at h3
    · refine foldlM_keeps (P := fun y => Writes a (Reach N.ch S) x y) _ _ ?_ (Writes.refl _ _ _) _ h3
      rintro ⟨c, i⟩ hc y hy z hz
      exact hy.trans (Writes.store hs hz)
    · cases h3; exact Writes.refl _ _ _
  · cases hcs; exact reach_child hs (innerCh_sub hc).1

theorem deriveHard_writes {N : Net ι F} {S : ι} {tk : Int} (h0 : 0 ≤ tk) {st : Storer ι F} {a : Nat} (ha : st.table tk = some a) {I : VarSet} {pick : ι → Nat → Nat} {r : Int × Storer ι F}
    (h : N.deriveHard S st tk I pick = some r) : Writes a (Reach N.ch S) st r.2 := by
  unfold Net.deriveHard at h
  have hn : newIfNeg tk st = (tk, st) := by unfold newIfNeg; rw [if_neg (by omega)]
  rw [hn] at h
  simp only [ha, Option.bind_eq_some_iff, Option.map_eq_some_iff] at h
  obtain ⟨T, _, st2, h2, rfl⟩ := h
  refine work_keeps (P := fun x => Writes a (Reach N.ch S) st x) (R := Reach N.ch S) ?_ Relation.ReflTransGen.refl (Writes.refl _ _ _) st2 h2
  intro x s hx hs x' o hact
  unfold Net.deriveHardStep at hact
  cases hk : N.kind s with
  | leaf l =>
    simp only [hk, Option.some.injEq, Prod.mk.injEq] at hact
    obtain ⟨rfl, rfl⟩ := hact
    exact ⟨hx, fun cs hcs c hc => by cases hcs; simp at hc⟩
  | product cs =>
    simp only [hk, Option.some.injEq, Prod.mk.injEq] at hact
    obtain ⟨rfl, rfl⟩ := hact
    exact ⟨hx, fun cs hcs c hc => by cases hcs; exact reach_child hs (innerCh_sub hc).1⟩
  | sum cs w =>
    simp only [hk] at hact
    cases hT : T s with
    | none =>
      simp only [hT, Option.some.injEq, Prod.mk.injEq] at hact
      obtain ⟨rfl, rfl⟩ := hact
      exact ⟨hx, fun cs hcs c hc => by cases hcs; simp at hc⟩
    | some mi =>
      simp only [hT, Option.bind_eq_some_iff, Option.map_eq_some_iff, Prod.mk.injEq] at hact
      obtain ⟨x1, h3, mc, h4, rfl, rfl⟩ := hact
      refine ⟨hx.trans (Writes.store hs h3), fun cs' hcs c hc => ?_⟩
      cases hcs
      simp only [List.mem_singleton] at hc
      subst hc
      refine reach_child hs ?_
      simp only [Net.ch, hk]
      exact List.mem_of_getElem? h4

theorem dgdLoop_keeps {N : Net ι F} {σ : Type} {P : σ → Prop} {S : ι} {upd : σ → ι → σ} (h : ∀ x s, P x → Reach N.ch S s → N.type s = .sum → P (upd x s)) :
    ∀ (fuel : Nat) (Q : List ι) (V : Finset ι) (x : σ), (∀ s ∈ Q, Reach N.ch S s) → P x → ∀ y, N.dgdLoop upd fuel Q V x = some y → P y := by
  intro fuel
  induction fuel with
  | zero => intro Q V x _ _ y hy; simp [Net.dgdLoop] at hy
  | succ fuel ih =>
    intro Q V x hQ hx y hy
    cases Q with
    | nil => simp only [Net.dgdLoop, Option.some.injEq] at hy; exact hy ▸ hx
    | cons n Q =>
      simp only [Net.dgdLoop] at hy
      refine ih _ _ _ ?_ ?_ y hy
      · have hn : Reach N.ch S n := hQ n (by simp)
        have key : ∀ (cs : List ι) (QV : List ι × Finset ι), (∀ c ∈ cs, Reach N.ch S c) → (∀ s ∈ QV.1, Reach N.ch S s) →
            ∀ s ∈ (cs.foldl (fun (QV : List ι × Finset ι) c => if N.type c ≠ .leaf ∧ c ∈ QV.2 then (QV.1 ++ [c], insert c QV.2) else QV) QV).1, Reach N.ch S s := by
          intro cs
          induction cs with
          | nil => intro QV _ hq; exact hq
          | cons c cs ihc =>
            intro QV hcs hq
            rw [List.foldl_cons]
            refine ihc _ (fun d hd => hcs d (by simp [hd])) ?_
            split
            · intro s hs
              simp only [List.mem_append, List.mem_singleton] at hs
              rcases hs with hs | rfl
              · exact hq s hs
              · exact hcs s (by simp)
            · exact hq
        exact key _ (Q, V) (fun c hc => reach_child hn hc) (fun s hs => hQ s (by simp [hs]))
      · split
        · exact h x n hx (hQ n (by simp)) (by assumption)
        · exact hx

theorem storeDGD_writes {N : Net ι F} {S : ι} {s w z u l : Int} {st st' : Storer ι F} {a : Nat} (ha : st.table l = some a) {fuel : Nat}
    (h : N.storeDGD S s w z u l st fuel = some st') : Writes a (Reach N.ch S) st st' := by
  unfold Net.storeDGD at h
  have hj : ∀ {α : Type} {o : Option (Option α)} {x : α}, o.join = some x → o = some (some x) := by
    intro α o x h
    cases o with
    | none => cases h
    | some o => exact congrArg some h
  refine dgdLoop_keeps (S := S) (P := fun o : Option (Storer ι F) => ∀ y, o = some y → Writes a (Reach N.ch S) st y) ?_ _ _ _ _ (by intro s hs; rw [List.mem_singleton.1 hs]; exact Relation.ReflTransGen.refl) ?_ _ (hj h) st' rfl
  · intro o n ho hn ht y hy
    simp only [Option.bind_eq_some_iff] at hy
    obtain ⟨st1, rfl, hy⟩ := hy
    rw [ha] at hy
    unfold dgdStore at hy
    refine foldlM_keeps (P := fun y => Writes a (Reach N.ch S) st y) _ _ ?_ (ho st1 rfl) _ hy
    intro i hi x hx z hz
    exact hx.trans (Writes.store hn hz)
  · intro y hy
    cases hy
    exact Writes.refl _ _ _

/-! ### What the updates do to the weights -/

/-- The slices `W` have the lengths of those of `N`, and are those of `N` at nodes without `R`. -/
def SameShape (R : ι → Prop) (N : Net ι F) (W : ι → List F) : Prop := ∀ n, (W n).length = (N.weights n).length ∧ (¬ R n → W n = N.weights n)

omit [GoFloat F] [Fintype ι] in
theorem SameShape.refl (R : ι → Prop) (N : Net ι F) : SameShape R N N.weights := fun _ => ⟨rfl, fun _ => rfl⟩

omit [GoFloat F] [Fintype ι] in
theorem SameShape.update {R : ι → Prop} {N : Net ι F} {W : ι → List F} (h : SameShape R N W) {s : ι} {w : List F} (hs : R s) (hw : w.length = (W s).length) :
    SameShape R N (Function.update W s w) := by
  intro n
  by_cases hn : n = s
  · subst hn
    simp only [Function.update_self]
    exact ⟨hw.trans (h n).1, fun h' => absurd hs h'⟩
  · simp only [Function.update_of_ne hn]
    exact h n

omit [DecidableEq ι] [GoFloat F] [Fintype ι] in
theorem SameShape.only {S : ι} {N : Net ι F} {W : ι → List F} (h : SameShape (Reach N.ch S) N W) : OnlyWeights S N (N.withWeights W) := by
  intro n
  cases hk : N.kind n with
  | sum cs w =>
    have := h n
    simp only [Net.weights, hk] at this
    exact ⟨W n, by simp [Net.withWeights, hk], this.1, this.2⟩
  | product cs => simp [Net.withWeights, hk]
  | leaf l => simp [Net.withWeights, hk]

omit [DecidableEq ι] [Fintype ι] in
theorem learnNormalize_length (v : List F) : (learnNormalize v).length = v.length := by
  simp only [learnNormalize, divSum, List.length_map]
  split <;> simp

omit [GoFloat F] in
theorem mapApply_length {f : F → F → F} {m : Int → Option F} {ks : List Int} {w w' : List F} (h : mapApply f m ks w = some w') : w'.length = w.length := by
  unfold mapApply at h
  refine foldlM_keeps (P := fun x : List F => x.length = w.length) _ _ ?_ rfl _ h
  intro i _ x hx y hy
  cases hm : m i with
  | none => simp only [hm, Option.elim_none, Option.some.injEq] at hy; exact hy ▸ hx
  | some d =>
    simp only [hm, Option.elim_some, Option.map_eq_some_iff] at hy
    obtain ⟨_, _, rfl⟩ := hy
    simpa using hx

theorem fastStep_shape {N : Net ι F} {R : ι → Prop} {f : F → F → F} {norm : Bool} {mo : RangeOrder ι F} {t : Nat} {T : Table ι F} {W W' : ι → List F} {s : ι} (hs : R s)
    (hW : SameShape R N W) (h : N.fastStep f norm mo t T W s = some W') : SameShape R N W' := by
  unfold Net.fastStep at h
  split at h
  · simp only [Option.map_eq_some_iff] at h
    obtain ⟨w, h1, rfl⟩ := h
    refine hW.update hs ?_
    split
    · rw [learnNormalize_length, mapApply_length h1]
    · exact mapApply_length h1
  · cases h; exact hW

theorem applyFast_only {N N' : Net ι F} {S : ι} {f : F → F → F} {norm : Bool} {mo : RangeOrder ι F} (ho : RangesAll mo) {t : Nat} {T : Table ι F} (hT : ∀ n, T n ≠ none → Reach N.ch S n)
    (h : N.applyFast f norm mo t T = some N') : OnlyWeights S N N' := by
  unfold Net.applyFast at h
  simp only [Option.map_eq_some_iff] at h
  obtain ⟨W, h1, rfl⟩ := h
  refine SameShape.only (foldlM_keeps (P := SameShape (Reach N.ch S) N) _ _ ?_ (SameShape.refl _ _) _ h1)
  intro s hs W hW W' hW'
  exact fastStep_shape (hT s (((ho.outer t T).2 s).1 hs)) hW hW'

theorem applyHGD_only {N N' : Net ι F} {S : ι} {f : F → F → F} {norm : Bool} {mo : RangeOrder ι F} {t : Nat} {T : Table ι F} (h : N.applyHGD S f norm mo t T = some N') :
    OnlyWeights S N N' := by
  unfold Net.applyHGD at h
  simp only [Option.map_eq_some_iff] at h
  obtain ⟨W, h1, rfl⟩ := h
  refine SameShape.only (work_keeps (P := SameShape (Reach N.ch S) N) (R := Reach N.ch S) ?_ Relation.ReflTransGen.refl (SameShape.refl _ _) _ h1)
  intro W s hW hs W' o hact
  simp only [Option.map_eq_some_iff, Prod.mk.injEq] at hact
  obtain ⟨W'', h2, rfl, rfl⟩ := hact
  refine ⟨?_, fun cs hcs c hc => by cases hcs; exact reach_child hs (innerCh_sub hc).1⟩
  split at h2
  · cases h2; exact hW
  · exact fastStep_shape hs hW h2

theorem deriveApplyWeights_only {N N' : Net ι F} {S : ι} {eta : F} {st : Storer ι F} {dtk itk : Int} {isStack norm : Bool} (h : N.deriveApplyWeights S eta st dtk itk isStack norm = some N') :
    OnlyWeights S N N' := by
  unfold Net.deriveApplyWeights at h
  simp only [Option.map_eq_some_iff] at h
  obtain ⟨W, h1, rfl⟩ := h
  refine SameShape.only (work_keeps (P := SameShape (Reach N.ch S) N) (R := Reach N.ch S) ?_ Relation.ReflTransGen.refl (SameShape.refl _ _) _ h1)
  intro W s hW hs W' o hact
  simp only [Option.map_eq_some_iff, Prod.mk.injEq] at hact
  obtain ⟨W'', h2, rfl, rfl⟩ := hact
  refine ⟨?_, fun cs hcs c hc => by cases hcs; exact reach_child hs (innerCh_sub hc).1⟩
  unfold Net.applyStep at h2
  dsimp only at h2
  split at h2
  · simp only [Option.map_eq_some_iff] at h2
    obtain ⟨w, h3, rfl⟩ := h2
    refine hW.update hs ?_
    have hl : w.length = (W s).length := by
      unfold applyLoop at h3
      refine foldlM_keeps (P := fun x : List F => x.length = (W s).length) _ _ ?_ rfl _ h3
      intro ci _ x hx y hy
      simp only [Option.map_eq_some_iff] at hy
      obtain ⟨_, _, rfl⟩ := hy
      simpa using hx
    split
    · rw [learnNormalize_length, hl]
    · exact hl
  · cases h2; exact hW

theorem applyDGD_only {N N' : Net ι F} {S : ι} {s w z u : Int} {st : Storer ι F} {eta lambda b : F} {norm : Bool} {fuel : Nat} (h : N.applyDGD S s w z u st eta lambda b norm fuel = some N') :
    OnlyWeights S N N' := by
  unfold Net.applyDGD at h
  simp only [Option.map_eq_some_iff] at h
  obtain ⟨W, h1, rfl⟩ := h
  refine SameShape.only (dgdLoop_keeps (S := S) (P := SameShape (Reach N.ch S) N) ?_ _ _ _ _ (by intro s hs; rw [List.mem_singleton.1 hs]; exact Relation.ReflTransGen.refl) (SameShape.refl _ _) _ h1)
  intro W n hW hn _
  refine hW.update hn ?_
  split
  · rw [learnNormalize_length]; simp [dgdWeights]
  · simp [dgdWeights]

theorem countDiff_row {dt pt : Table ι F} {n : ι} (h : countDiff dt pt n ≠ none) : dt n ≠ none ∨ pt n ≠ none := by
  by_contra hc
  simp only [ne_eq, not_or, not_not] at hc
  exact h (by simp [countDiff, hc.1, hc.2])

theorem applyHDGD_only {N N' : Net ι F} {S : ι} {f : F → F → F} {norm : Bool} {mo : RangeOrder ι F} (ho : RangesAll mo) {t : Nat} {dt pt : Table ι F} (hd : ∀ n, dt n ≠ none → Reach N.ch S n)
    (hp : ∀ n, pt n ≠ none → Reach N.ch S n) (h : N.applyHDGD f norm mo t dt pt = some N') : OnlyWeights S N N' := by
  unfold Net.applyHDGD at h
  simp only [Option.map_eq_some_iff] at h
  obtain ⟨W, h1, rfl⟩ := h
  refine SameShape.only (foldlM_keeps (P := SameShape (Reach N.ch S) N) _ _ ?_ (SameShape.refl _ _) _ h1)
  intro s hs W hW W' hW'
  split at hW'
  · exact fastStep_shape ((countDiff_row (((ho.outer t _).2 s).1 hs)).elim (hd s) (hp s)) hW hW'
  · cases hW'

/-! ### The loops -/

/-- The storage part of the invariant of the loops: the tickets `ks` have tables, whose rows belong to nodes with `R`. -/
structure Sound (R : ι → Prop) (ks : List Int) (st : Storer ι F) : Prop where
  wf : st.WF
  nonneg : ∀ k ∈ ks, 0 ≤ k
  has : ∀ k ∈ ks, st.table k ≠ none
  rows : ∀ k ∈ ks, ∀ n i, st.entry k n i ≠ none → R n

omit [GoFloat F] [Fintype ι] in
theorem Sound.get {R : ι → Prop} {ks : List Int} {st : Storer ι F} (h : Sound R ks st) {k : Int} (hk : k ∈ ks) : ∃ a, st.table k = some a ∧ 0 ≤ k := by
  obtain ⟨a, ha⟩ := Option.ne_none_iff_exists'.1 (h.has k hk)
  exact ⟨a, ha, h.nonneg k hk⟩

omit [GoFloat F] [Fintype ι] in
theorem Sound.writes {R : ι → Prop} {ks : List Int} {st st' : Storer ι F} (h : Sound R ks st) {a : Nat} (hw : Writes a R st st') : Sound R ks st' := by
  refine ⟨hw.wf h.wf, h.nonneg, fun k hk => ?_, fun k hk n i hn => ?_⟩
  · rw [show st'.table k = st.table k from congrFun hw.tables k]; exact h.has k hk
  · by_contra hR
    rw [hw.entry (Or.inr hR)] at hn
    exact hR (h.rows k hk n i hn)

theorem Sound.reset {R : ι → Prop} {ks : List Int} {st : Storer ι F} (h : Sound R ks st) (k : Int) : Sound R ks (st.reset k) := by
  refine ⟨Storer.reset_wf h.wf k, h.nonneg, fun k' hk => ?_, fun k' hk n i hn => ?_⟩
  · exact reset_table k k' (h.has k' hk)
  · rw [reset_entry h.wf] at hn
    split at hn
    · exact absurd rfl hn
    · exact h.rows k' hk n i hn

theorem Sound.resetTickets {R : ι → Prop} {ks : List Int} (l : List Int) : ∀ {st : Storer ι F}, Sound R ks st → Sound R ks (st.resetTickets l) := by
  induction l with
  | nil => intro st h; exact h
  | cons k l ih => intro st h; exact ih (h.reset k)

theorem Sound.row {R : ι → Prop} {ks : List Int} {st : Storer ι F} (h : Sound R ks st) {k : Int} (hk : k ∈ ks) {n : ι} (hn : st.deref (st.table k) n ≠ none) : R n := by
  obtain ⟨m, hm⟩ := Option.ne_none_iff_exists'.1 hn
  obtain ⟨i, hi⟩ := h.wf.row hm
  refine h.rows k hk n i ?_
  rw [← deref_table, Table.entry, hm]
  exact hi


/-- The invariant of the loops. -/
structure Kept (S : ι) (N0 : Net ι F) (ks : List Int) (x : Net ι F × Storer ι F) : Prop where
  shape : OnlyWeights S N0 x.1
  sound : Sound (Reach x.1.ch S) ks x.2

theorem Kept.net {S : ι} {N0 : Net ι F} {ks : List Int} {x : Net ι F × Storer ι F} (h : Kept S N0 ks x) {N' : Net ι F} {st' : Storer ι F} (hN : OnlyWeights S x.1 N')
    (hs : Sound (Reach x.1.ch S) ks st') : Kept S N0 ks (N', st') :=
  ⟨h.shape.trans hN, by show Sound (Reach N'.ch S) ks st'; rw [hN.ch]; exact hs⟩

theorem Sound.inference {S : ι} {N : Net ι F} {ks : List Int} {st : Storer ι F} (h : Sound (Reach N.ch S) ks st) {k : Int} (hk : k ∈ ks) {I : VarSet} {r : Option (ι × Int) × Storer ι F}
    (he : N.storeInference S I k st = some r) : Sound (Reach N.ch S) ks r.2 := by
  obtain ⟨a, ha, h0⟩ := h.get hk
  exact h.writes (storeInference_writes h0 ha he)

theorem Sound.derive {S : ι} {N : Net ι F} {ks : List Int} {st : Storer ι F} (h : Sound (Reach N.ch S) ks st) {k i : Int} (hk : k ∈ ks) {isStack : Bool} {r : Int × Storer ι F}
    (he : N.deriveSPN S st k i isStack = some r) : Sound (Reach N.ch S) ks r.2 := by
  obtain ⟨a, ha, h0⟩ := h.get hk
  exact h.writes (deriveSPN_writes h0 ha he)

theorem Sound.weights {S : ι} {N : Net ι F} {ks : List Int} {st : Storer ι F} (h : Sound (Reach N.ch S) ks st) {k d i : Int} (hk : k ∈ ks) {isStack : Bool} {r : Int × Storer ι F}
    (he : N.deriveWeights S st k d i isStack = some r) : Sound (Reach N.ch S) ks r.2 := by
  obtain ⟨a, ha, h0⟩ := h.get hk
  exact h.writes (deriveWeights_writes h0 ha he)

theorem Sound.weightsBatch {S : ι} {N : Net ι F} {ks : List Int} {st : Storer ι F} (h : Sound (Reach N.ch S) ks st) {k d i : Int} (hk : k ∈ ks) {isStack : Bool} {r : Int × Storer ι F}
    (he : N.deriveWeightsBatch S st k d i isStack = some r) : Sound (Reach N.ch S) ks r.2 := by
  obtain ⟨a, ha, h0⟩ := h.get hk
  exact h.writes (deriveWeightsBatch_writes h0 ha he)

theorem Sound.hard {S : ι} {N : Net ι F} {ks : List Int} {st : Storer ι F} (h : Sound (Reach N.ch S) ks st) {k : Int} (hk : k ∈ ks) {I : VarSet} {pick : ι → Nat → Nat} {r : Int × Storer ι F}
    (he : N.deriveHard S st k I pick = some r) : Sound (Reach N.ch S) ks r.2 := by
  obtain ⟨a, ha, h0⟩ := h.get hk
  exact h.writes (deriveHard_writes h0 ha he)

theorem Sound.dgd {S : ι} {N : Net ι F} {ks : List Int} {st st' : Storer ι F} (h : Sound (Reach N.ch S) ks st) {s w z u l : Int} (hk : l ∈ ks) {fuel : Nat}
    (he : N.storeDGD S s w z u l st fuel = some st') : Sound (Reach N.ch S) ks st' := by
  obtain ⟨a, ha, h0⟩ := h.get hk
  exact h.writes (storeDGD_writes ha he)

theorem Sound.new (R : ι → Prop) : Sound R [] (Storer.new : Storer ι F) := ⟨Storer.new_wf, by simp, by simp, by simp⟩

theorem Sound.ticket {R : ι → Prop} {ks : List Int} {st : Storer ι F} (h : Sound R ks st) (h0 : 0 ≤ st.tickets) : Sound R (st.newTicket.1 :: ks) st.newTicket.2 := by
  refine ⟨Storer.newTicket_wf h.wf, ?_, ?_, ?_⟩
  · intro k hk
    rcases List.mem_cons.1 hk with rfl | hk
    · exact h0
    · exact h.nonneg k hk
  · intro k hk
    rcases List.mem_cons.1 hk with rfl | hk
    · simp [Storer.newTicket, Storer.makeAt, Storer.table]
    · by_cases hj : k = st.tickets
      · simp [Storer.newTicket, Storer.makeAt, Storer.table, hj]
      · simpa [Storer.newTicket, Storer.makeAt, Storer.table, hj] using h.has k hk
  · intro k hk n i hn
    have hw : Storer.WF { st with tickets := st.tickets + 1 } := ⟨h.wf.alloc, h.wf.inj, h.wf.ok⟩
    rw [Storer.newTicket, Storer.makeAt_entry hw] at hn
    rcases List.mem_cons.1 hk with rfl | hk
    · simp [Storer.newTicket] at hn
    · by_cases hj : k = st.tickets
      · simp [hj] at hn
      · rw [if_neg hj] at hn
        exact h.rows k hk n i hn

theorem Kept.applyReset {S : ι} {N0 : Net ι F} {ks : List Int} {x y : Net ι F × Storer ι F} (h : Kept S N0 ks x) {f : F → F → F} {tk : Int} (hk : tk ∈ ks) {norm : Bool} {mo : RangeOrder ι F}
    (ho : RangesAll mo) (he : Net.applyReset f tk norm mo x = some y) : Kept S N0 ks y := by
  unfold Net.applyReset at he
  simp only [Option.map_eq_some_iff] at he
  obtain ⟨N', h1, rfl⟩ := he
  exact h.net (applyFast_only ho (fun n hn => h.sound.row hk hn) h1) (h.sound.reset tk)

theorem Kept.hardReset {S : ι} {N0 : Net ι F} {ks : List Int} {x y : Net ι F × Storer ι F} (h : Kept S N0 ks x) {P : Params F} {eta : F} {d p : Int} (hd : d ∈ ks) (hp : p ∈ ks) {norm : Bool}
    {b : Int} {mo : RangeOrder ι F} (ho : RangesAll mo) (he : Net.hardReset P eta norm b mo d p x = some y) : Kept S N0 ks y := by
  unfold Net.hardReset at he
  simp only [Option.map_eq_some_iff] at he
  obtain ⟨N', h1, rfl⟩ := he
  exact h.net (applyHDGD_only ho (fun n hn => h.sound.row hd hn) (fun n hn => h.sound.row hp hn) h1) (h.sound.resetTickets _)

theorem Kept.gdInstance {S : ι} {N0 : Net ι F} {ks : List Int} {x y : Net ι F × Storer ι F} (h : Kept S N0 ks x) {eta : F} {stk itk : Int} (h1 : stk ∈ ks) (h2 : itk ∈ ks) {isStack norm : Bool} {I : VarSet}
    (he : Net.gdInstance S eta stk itk isStack norm x I = some y) : Kept S N0 ks y := by
  unfold Net.gdInstance at he
  simp only [Option.bind_eq_some_iff, Option.map_eq_some_iff] at he
  obtain ⟨r1, e1, r2, e2, N', e3, rfl⟩ := he
  exact h.net (deriveApplyWeights_only e3) ((((h.sound.inference h2 e1).derive h1 e2).reset _).reset _)

theorem Kept.hgdInstance {S : ι} {N0 : Net ι F} {ks : List Int} {x y : Net ι F × Storer ι F} (h : Kept S N0 ks x) {P : Params F} {eta : F} {dtk itk : Int} (h1 : dtk ∈ ks) (h2 : itk ∈ ks) {norm : Bool}
    {mo : RangeOrder ι F} {pick : Nat → ι → Nat → Nat} {I : VarSet} (he : Net.hgdInstance S P eta dtk itk norm mo pick x I = some y) : Kept S N0 ks y := by
  unfold Net.hgdInstance at he
  simp only [Option.bind_eq_some_iff, Option.map_eq_some_iff] at he
  obtain ⟨r1, e1, r2, e2, N', e3, rfl⟩ := he
  exact h.net (applyHGD_only e3) ((((h.sound.inference h2 e1).hard h1 e2).reset _).reset _)

theorem Kept.bgdInstance {S : ι} {N0 : Net ι F} {ks : List Int} {x y : (Net ι F × Storer ι F) × Int} (h : Kept S N0 ks x.1) {P : Params F} {eta : F} {stk itk wtk : Int} (h1 : stk ∈ ks) (h2 : itk ∈ ks)
    (h3 : wtk ∈ ks) {isStack norm : Bool} {b : Int} {mo : RangeOrder ι F} (ho : RangesAll mo) {I : VarSet} (he : Net.bgdInstance S P eta stk itk wtk isStack norm b mo x I = some y) :
    Kept S N0 ks y.1 := by
  unfold Net.bgdInstance at he
  simp only [Option.bind_eq_some_iff] at he
  obtain ⟨r1, e1, r2, e2, r3, e3, d, e4, e5⟩ := he
  have hk : Kept S N0 ks (x.1.1, (r3.2.reset itk).reset stk) :=
    h.net (OnlyWeights.refl _ _) (((((h.sound.inference h2 e1).derive h1 e2).weightsBatch h3 e3).reset _).reset _)
  split at e5
  · simp only [Option.map_eq_some_iff] at e5
    obtain ⟨z, e6, rfl⟩ := e5
    exact hk.applyReset h3 ho e6
  · cases e5; exact hk

theorem Kept.hbgdInstance {S : ι} {N0 : Net ι F} {ks : List Int} {x y : (Net ι F × Storer ι F) × Int} (h : Kept S N0 ks x.1) {P : Params F} {eta : F} {dtk itk : Int} (h1 : dtk ∈ ks) (h2 : itk ∈ ks)
    {norm : Bool} {b : Int} {mo : RangeOrder ι F} (ho : RangesAll mo) {pick : Nat → ι → Nat → Nat} {I : VarSet} (he : Net.hbgdInstance S P eta dtk itk norm b mo pick x I = some y) :
    Kept S N0 ks y.1 := by
  unfold Net.hbgdInstance at he
  simp only [Option.bind_eq_some_iff] at he
  obtain ⟨r1, e1, r2, e2, d, e4, e5⟩ := he
  have hk : Kept S N0 ks (x.1.1, r2.2.reset itk) := h.net (OnlyWeights.refl _ _) (((h.sound.inference h2 e1).hard h1 e2).reset _)
  split at e5
  · simp only [Option.map_eq_some_iff] at e5
    obtain ⟨z, e6, rfl⟩ := e5
    exact hk.applyReset h1 ho e6
  · cases e5; exact hk

theorem dgdTables_sound {S : ι} {N : Net ι F} {ks : List Int} {st : Storer ι F} (h : Sound (Reach N.ch S) ks st) {Y : List Int} {s d w z p u : Int} (hs : s ∈ ks) (hd : d ∈ ks) (hw : w ∈ ks) (hz : z ∈ ks)
    (hp : p ∈ ks) (hu : u ∈ ks) {I : VarSet} {r : Storer ι F × VarSet × List Int} (he : N.dgdTables S Y s d w z p u st I = some r) :
    Sound (Reach N.ch S) ks r.1 ∧ r.2 = pullValues I Y := by
  unfold Net.dgdTables at he
  simp only [Option.bind_eq_some_iff, Option.map_eq_some_iff] at he
  obtain ⟨r1, e1, r2, e2, r3, e3, r4, e4, r5, e5, r6, e6, rfl⟩ := he
  exact ⟨(((((h.inference hs e1).derive hd e2).weights hw e3).inference hz e4).derive hp e5).weights hu e6, rfl⟩

/-- The instance with the query values taken out and put back. -/
def pulledBack (Y : List Int) (I : VarSet) : VarSet := pushValues (pullValues I Y).1 Y (pullValues I Y).2

theorem overData_keeps {σ : Type} {P : σ → Prop} {g : VarSet → VarSet} {body : σ → VarSet → Option (σ × VarSet)} (h : ∀ x I, P x → ∀ y, body x I = some y → P y.1 ∧ y.2 = g I) :
    ∀ (D : List VarSet) (x : σ), P x → ∀ y, overData body x D = some y → P y.1 ∧ y.2 = D.map g := by
  intro D
  induction D with
  | nil => intro x hx y hy; simp only [overData, Option.some.injEq] at hy; subst hy; exact ⟨hx, rfl⟩
  | cons I D ih =>
    intro x hx y hy
    simp only [overData, Option.bind_eq_some_iff, Option.map_eq_some_iff] at hy
    obtain ⟨r, e1, q, e2, rfl⟩ := hy
    obtain ⟨h1, h2⟩ := h x I hx r e1
    obtain ⟨h3, h4⟩ := ih r.1 h1 q e2
    exact ⟨h3, by simp [h2, h4]⟩

/-- Taking values out and putting them back a second time changes nothing more. -/
theorem epochs_data {σ : Type} {P : σ → Prop} {g : VarSet → VarSet} {body : σ → VarSet → Option (σ × VarSet)} (h : ∀ x I, P x → ∀ y, body x I = some y → P y.1 ∧ y.2 = g I) (k : Int)
    (D : List VarSet) (x : σ) (hx : P x) {y : σ × List VarSet} (he : epochs k (fun x : σ × List VarSet => overData body x.1 x.2) (x, D) = some y) :
    P y.1 ∧ y.2 = D.map g^[k.toNat] := by
  unfold epochs at he
  generalize k.toNat = n at he ⊢
  induction n generalizing x D with
  | zero => simp only [List.replicate_zero, List.foldlM_nil, Option.pure_def, Option.some.injEq] at he; subst he; exact ⟨hx, by simp⟩
  | succ n ih =>
    rw [List.replicate_succ, List.foldlM_cons] at he
    simp only [Option.bind_eq_bind, Option.bind_eq_some_iff] at he
    obtain ⟨z, e1, e2⟩ := he
    obtain ⟨h1, h2⟩ := overData_keeps h D x hx z e1
    obtain ⟨h3, h4⟩ := ih z.2 z.1 h1 e2
    refine ⟨h3, ?_⟩
    rw [h4, h2, List.map_map]
    congr 1

theorem Kept.dgdInstance {S : ι} {N0 : Net ι F} {ks : List Int} {x : Net ι F × Storer ι F} (h : Kept S N0 ks x) {P : Params F} {eta : F} {Y : List Int} {norm : Bool} {s d w z p u : Int}
    (hs : s ∈ ks) (hd : d ∈ ks) (hw : w ∈ ks) (hz : z ∈ ks) (hp : p ∈ ks) (hu : u ∈ ks) {I : VarSet} {y : (Net ι F × Storer ι F) × VarSet}
    (he : Net.dgdInstance S P eta Y norm s d w z p u x I = some y) : Kept S N0 ks y.1 ∧ y.2 = pulledBack Y I := by
  unfold Net.dgdInstance at he
  simp only [Option.bind_eq_some_iff, Option.map_eq_some_iff] at he
  obtain ⟨r, e1, N', e2, rfl⟩ := he
  obtain ⟨h1, h2⟩ := dgdTables_sound h.sound hs hd hw hz hp hu e1
  exact ⟨h.net (applyDGD_only e2) (h1.resetTickets _), by simp only [h2, pulledBack]⟩

theorem Kept.dbgdInstance {S : ι} {N0 : Net ι F} {ks : List Int} {x : (Net ι F × Storer ι F) × Int} (h : Kept S N0 ks x.1) {P : Params F} {eta : F} {Y : List Int} {norm : Bool} {b : Int}
    {mo : RangeOrder ι F} (ho : RangesAll mo) {s d w z p u l : Int} (hs : s ∈ ks) (hd : d ∈ ks) (hw : w ∈ ks) (hz : z ∈ ks) (hp : p ∈ ks) (hu : u ∈ ks) (hl : l ∈ ks) {I : VarSet}
    {y : ((Net ι F × Storer ι F) × Int) × VarSet} (he : Net.dbgdInstance S P eta Y norm b mo s d w z p u l x I = some y) : Kept S N0 ks y.1.1 ∧ y.2 = pulledBack Y I := by
  unfold Net.dbgdInstance at he
  simp only [Option.bind_eq_some_iff, Option.map_eq_some_iff] at he
  obtain ⟨r, e1, st, e2, q, e3, v, e4, rfl⟩ := he
  obtain ⟨h1, h2⟩ := dgdTables_sound h.sound hs hd hw hz hp hu e1
  have hk : Kept S N0 ks (x.1.1, st.resetTickets [s, d, w, z, p, u]) := h.net (OnlyWeights.refl _ _) ((h1.dgd hl e2).resetTickets _)
  refine ⟨?_, by simp only [h2, pulledBack]⟩
  split at e4
  · exact hk.applyReset hl ho e4
  · cases e4; exact hk

theorem hardPair_sound {S : ι} {N : Net ι F} {ks : List Int} {st : Storer ι F} (h : Sound (Reach N.ch S) ks st) {Y : List Int} {d p : Int} (hd : d ∈ ks) (hp : p ∈ ks) {pick : Nat → ι → Nat → Nat}
    {I : VarSet} {r : Storer ι F × VarSet} (he : N.hardPair S Y d p pick st I = some r) : Sound (Reach N.ch S) ks r.1 ∧ r.2 = pulledBack Y I := by
  unfold Net.hardPair at he
  simp only [Option.bind_eq_some_iff, Option.map_eq_some_iff] at he
  obtain ⟨r1, e1, r2, e2, rfl⟩ := he
  exact ⟨(h.hard hd e1).hard hp e2, rfl⟩

theorem Kept.dhgdInstance {S : ι} {N0 : Net ι F} {ks : List Int} {x : Net ι F × Storer ι F} (h : Kept S N0 ks x) {P : Params F} {eta : F} {Y : List Int} {norm : Bool} {mo : RangeOrder ι F}
    (ho : RangesAll mo) {pick : Nat → ι → Nat → Nat} {d p : Int} (hd : d ∈ ks) (hp : p ∈ ks) {I : VarSet} {y : (Net ι F × Storer ι F) × VarSet}
    (he : Net.dhgdInstance S P eta Y norm mo pick d p x I = some y) : Kept S N0 ks y.1 ∧ y.2 = pulledBack Y I := by
  unfold Net.dhgdInstance at he
  simp only [Option.bind_eq_some_iff, Option.map_eq_some_iff] at he
  obtain ⟨r, e1, v, e2, rfl⟩ := he
  obtain ⟨h1, h2⟩ := hardPair_sound h.sound hd hp e1
  exact ⟨(h.net (OnlyWeights.refl _ _) h1).hardReset hd hp ho e2, h2⟩

theorem Kept.dhbgdInstance {S : ι} {N0 : Net ι F} {ks : List Int} {x : (Net ι F × Storer ι F) × Int} (h : Kept S N0 ks x.1) {P : Params F} {eta : F} {Y : List Int} {norm : Bool} {b : Int}
    {mo : RangeOrder ι F} (ho : RangesAll mo) {pick : Nat → ι → Nat → Nat} {d p u : Int} (hd : d ∈ ks) (hp : p ∈ ks) (hu : u ∈ ks) {I : VarSet} {y : ((Net ι F × Storer ι F) × Int) × VarSet}
    (he : Net.dhbgdInstance S P eta Y norm b mo pick d p u x I = some y) : Kept S N0 ks y.1.1 ∧ y.2 = pulledBack Y I := by
  unfold Net.dhbgdInstance at he
  simp only [Option.bind_eq_some_iff, Option.map_eq_some_iff] at he
  obtain ⟨r0, e0, r, e1, q, e3, v, e4, rfl⟩ := he
  obtain ⟨h1, h2⟩ := hardPair_sound ((h.sound.inference hu e0).reset u) hd hp e1
  have hk : Kept S N0 ks (x.1.1, r.1) := h.net (OnlyWeights.refl _ _) h1
  refine ⟨?_, h2⟩
  split at e4
  · exact hk.hardReset hd hp ho e4
  · cases e4; exact hk

end
end Gospn
