import Verif.Proofs.Spn
set_option linter.unusedSectionVars false
namespace Gospn
open Spec GoFloat

variable {ι F : Type} [GoFloat F] [DecidableEq ι] [Fintype ι]

theorem weighted_storeVals (single : ι → Option F) (g : ι → F) : ∀ (cs : List ι) (w : List F), (∀ c ∈ cs, single c = some (g c)) →
    storeVals single cs w = (weighted (cs.map g) w).map some := by
  intro cs
  induction cs with
  | nil => intro w _; rfl
  | cons c cs ih =>
    intro w h
    simp only [storeVals, h c (by simp), List.map_cons]
    cases w with
    | nil => rfl
    | cons w0 w =>
      simp only [weighted]
      rw [ih w (fun d hd => h d (by simp [hd]))]
      cases weighted (cs.map g) w <;> rfl

/-- What is read at index 0 of the table at address `a`. -/
def tab0 (a : Nat) (st : Storer ι F) : ι → Option F := fun n => (st.heap a).entry n 0

theorem tab0_store (a : Nat) (st st' : Storer ι F) (s : ι) (v : F) (h : st.tableStore (some a) s 0 v = some st') :
    tab0 a st' = Function.update (tab0 a st) s (some v) := by
  simp only [Storer.tableStore, Option.some.injEq] at h
  subst h
  funext n
  simp only [tab0, Function.update_self, Table.entry_store]
  by_cases hn : n = s <;> simp [hn, tab0]

/-- One step of StoreInference when the values of the children are in the table. -/
theorem Net.storeInfStep_spec {N : Net ι F} {I : VarSet} (hne : ∀ n cs w, N.kind n = .sum cs w → cs ≠ []) {R : ι → Option F}
    (hR : ∀ n, R n = N.valueStep I R n) (a : Nat)
    (st : Storer ι F) (s : ι) (h : ∀ c ∈ N.ch s, R c = tab0 a st c ∧ (R c).isSome) :
    (R s = none ∧ N.storeInfStep I (some a) st s = none) ∨
      ∃ v st', R s = some v ∧ N.storeInfStep I (some a) st s = some (st', true) ∧ st.tableStore (some a) s 0 v = some st' := by
  have hget : ∀ c ∈ N.ch s, R c = some ((tab0 a st c).getD (ofInt 0)) := by
    intro c hc
    obtain ⟨h1, h2⟩ := h c hc
    rw [h1] at h2 ⊢
    obtain ⟨v, hv⟩ := Option.isSome_iff_exists.1 h2
    simp [hv]
  have hsing : ∀ c ∈ N.ch s, (st.deref (some a)).entry c 0 = some ((tab0 a st c).getD (ofInt 0)) := by
    intro c hc
    obtain ⟨h1, _⟩ := h c hc
    have := hget c hc
    rw [h1] at this
    exact this
  rw [hR s]
  unfold Net.valueStep Net.storeInfStep
  unfold Net.ch at hget hsing
  cases hk : N.kind s with
  | leaf l => simp only; cases l.value I <;> simp [Storer.tableStore]
  | sum cs w =>
    simp only [hk] at hget hsing ⊢
    rw [mapM_eq_some hget, weighted_storeVals _ _ cs w hsing]
    have hlen : cs.length ≠ 0 := by simpa using hne s cs w hk
    simp only [Option.bind_some]
    cases weighted (cs.map fun c => (tab0 a st c).getD (ofInt 0)) w with
    | none => simp
    | some vs => simp only [Option.bind_some, Option.map_some, hlen, if_false]; cases logSumExp vs <;> simp [Storer.tableStore]
  | product cs =>
    simp only [hk] at hget ⊢
    rw [mapM_eq_some hget]
    right
    exact ⟨_, _, rfl, by simp only [Storer.tableStore, Storer.deref, Option.map_some]; rfl, rfl⟩

/-- `st'` differs from `st` only in entries of index 0 of nodes of `l` in the table at `a`. -/
structure FrameAt (a : Nat) (l : List ι) (st st' : Storer ι F) : Prop where
  tables : st'.tables = st.tables
  tickets : st'.tickets = st.tickets
  next : st'.next = st.next
  others : ∀ b, b ≠ a → st'.heap b = st.heap b
  entries : ∀ n i, (n ∉ l ∨ i ≠ 0) → (st'.heap a).entry n i = (st.heap a).entry n i
  ok : (∀ b, (st.heap b).OK) → ∀ b, (st'.heap b).OK

theorem FrameAt.refl (a : Nat) (l : List ι) (st : Storer ι F) : FrameAt a l st st := ⟨rfl, rfl, rfl, fun _ _ => rfl, fun _ _ _ => rfl, id⟩

theorem FrameAt.trans {a : Nat} {l : List ι} {x y z : Storer ι F} (h1 : FrameAt a l x y) (h2 : FrameAt a l y z) : FrameAt a l x z :=
  ⟨h2.tables.trans h1.tables, h2.tickets.trans h1.tickets, h2.next.trans h1.next, fun b hb => (h2.others b hb).trans (h1.others b hb),
    fun n i h => (h2.entries n i h).trans (h1.entries n i h), fun h => h2.ok (h1.ok h)⟩

theorem FrameAt.mono {a : Nat} {l l' : List ι} {x y : Storer ι F} (h : FrameAt a l x y) (hl : ∀ n ∈ l, n ∈ l') : FrameAt a l' x y :=
  ⟨h.tables, h.tickets, h.next, h.others, fun n i hn => h.entries n i (hn.imp_left (fun h' h'' => h' (hl n h''))), h.ok⟩

theorem FrameAt.store {a : Nat} {st st' : Storer ι F} {s : ι} {v : F} (h : st.tableStore (some a) s 0 v = some st') : FrameAt a [s] st st' := by
  simp only [Storer.tableStore, Option.some.injEq] at h
  subst h
  refine ⟨rfl, rfl, rfl, fun b hb => by simp [hb], fun n i hn => ?_, fun h b => ?_⟩
  · simp only [Function.update_self, Table.entry_store]
    rw [if_neg]
    rintro ⟨rfl, rfl⟩
    simp at hn
  · by_cases hb : b = a
    · subst hb; simpa using Table.store_ok (h b) s 0 v
    · simpa [hb] using h b

theorem FrameAt.wf {a : Nat} {l : List ι} {st st' : Storer ι F} (h : FrameAt a l st st') (hw : st.WF) : st'.WF :=
  ⟨fun k b hk => by rw [h.next]; rw [h.tables] at hk; exact hw.alloc k b hk, fun k k' b hk hk' => by rw [h.tables] at hk hk'; exact hw.inj k k' b hk hk', h.ok hw.ok⟩

theorem Net.storeInfLoop_spec {N : Net ι F} {I : VarSet} (hne : ∀ n cs w, N.kind n = .sum cs w → cs ≠ []) {R : ι → Option F}
    (hR : ∀ n, R n = N.valueStep I R n) (a : Nat) : ∀ (done l : List ι) (st : Storer ι F), ChildrenFirst N.ch (done ++ l) →
      (∀ n ∈ done, R n = tab0 a st n ∧ (R n).isSome) →
      (∃ st', N.storeInfLoop I (some a) st l = some (st', true) ∧ (∀ n ∈ done ++ l, tab0 a st' n = R n ∧ (R n).isSome) ∧ FrameAt a l st st') ∨
      (N.storeInfLoop I (some a) st l = none ∧ ∃ n ∈ l, R n = none) := by
  intro done l
  induction l generalizing done with
  | nil =>
    intro st _ hd
    left; refine ⟨st, rfl, ?_, FrameAt.refl _ _ _⟩
    intro n hn; simp at hn; exact ⟨(hd n hn).1.symm, (hd n hn).2⟩
  | cons s l ih =>
    intro st hcf hd
    have hch : ∀ c ∈ N.ch s, c ∈ done := hcf done s l rfl
    rcases Net.storeInfStep_spec hne hR a st s (fun c hc => hd c (hch c hc)) with ⟨h1, h2⟩ | ⟨v, x', h1, h2, h3⟩
    · right; simp [Net.storeInfLoop, h2, h1]
    · have htab := tab0_store a st x' s v h3
      have := ih (done ++ [s]) x' (by simpa using hcf) (by
        intro n hn
        by_cases hns : n = s
        · subst hns; simp [htab, h1]
        · have hn' : n ∈ done := by simpa [hns] using hn
          rw [htab, Function.update_of_ne hns]; exact hd n hn')
      simp only [Net.storeInfLoop, h2]
      rcases this with ⟨y, h4, h5, h6⟩ | ⟨h4, n, hn, h5⟩
      · left; exact ⟨y, h4, by simpa using h5, ((FrameAt.store h3).mono (by simp)).trans (h6.mono (by intro n hn; simp [hn]))⟩
      · right; exact ⟨h4, n, by simp [hn], h5⟩

theorem Net.storeMapStep_spec {N : Net ι F} {I : VarSet} {R : ι → Option F}
    (hR : ∀ n, R n = N.maxStep I R n) (a : Nat) (st : Storer ι F) (s : ι) (h : ∀ c ∈ N.ch s, R c = tab0 a st c ∧ (R c).isSome) :
    (R s = none ∧ N.storeMapStep I (some a) st s = none) ∨
      ∃ v st', R s = some v ∧ N.storeMapStep I (some a) st s = some st' ∧ tab0 a st' = Function.update (tab0 a st) s (some v) := by
  have hget : ∀ c ∈ N.ch s, R c = some (((st.deref (some a)).entry c 0).getD (ofInt 0)) := by
    intro c hc
    obtain ⟨h1, h2⟩ := h c hc
    rw [h1] at h2 ⊢
    obtain ⟨v, hv⟩ := Option.isSome_iff_exists.1 h2
    have hv' : (st.deref (some a)).entry c 0 = some v := hv
    simp [hv, hv']
  rw [hR s]
  unfold Net.maxStep Net.storeMapStep
  unfold Net.ch at hget
  cases hk : N.kind s with
  | leaf l =>
    simp only
    cases hv : l.max I with
    | none => simp
    | some v => right; exact ⟨v, _, rfl, rfl, tab0_store a st _ s v rfl⟩
  | sum cs w =>
    simp only [hk] at hget ⊢
    rw [mapM_eq_some hget]
    simp only [Option.bind_some]
    cases hv : weightedMax (cs.map fun c => ((st.deref (some a)).entry c 0).getD (ofInt 0)) w with
    | none => simp
    | some us => right; exact ⟨_, _, rfl, rfl, tab0_store a st _ s _ rfl⟩
  | product cs =>
    simp only [hk] at hget ⊢
    rw [mapM_eq_some hget]
    right
    exact ⟨_, _, rfl, rfl, tab0_store a st _ s _ rfl⟩

theorem Net.storeMapStep_frame {N : Net ι F} {I : VarSet} {a : Nat} {st st' : Storer ι F} {s : ι}
    (h : N.storeMapStep I (some a) st s = some st') : FrameAt a [s] st st' := by
  unfold Net.storeMapStep at h
  cases hk : N.kind s with
  | leaf l => simp only [hk, Option.bind_eq_some_iff] at h; obtain ⟨v, _, h⟩ := h; exact FrameAt.store h
  | sum cs w => simp only [hk, Option.bind_eq_some_iff] at h; obtain ⟨v, _, h⟩ := h; exact FrameAt.store h
  | product cs => simp only [hk] at h; exact FrameAt.store h

theorem foldlM_frame {a : Nat} {f : Storer ι F → ι → Option (Storer ι F)} (hf : ∀ st s st', f st s = some st' → FrameAt a [s] st st') :
    ∀ (l : List ι) (st st' : Storer ι F), l.foldlM f st = some st' → FrameAt a l st st' := by
  intro l
  induction l with
  | nil => intro st st' h; simp at h; subst h; exact FrameAt.refl _ _ _
  | cons s l ih =>
    intro st st' h
    simp only [List.foldlM_cons, Option.bind_eq_bind, Option.bind_eq_some_iff] at h
    obtain ⟨x, h1, h2⟩ := h
    exact ((hf _ _ _ h1).mono (by simp)).trans ((ih x st' h2).mono (by intro n hn; simp [hn]))

/-- The first part of StoreMAP fills the table with the recursive MAP values. -/
theorem Net.storeMap_fold {N : Net ι F} {I : VarSet} (hac : Acyclic N.ch) {S : ι} (hcf : ChildrenFirst N.ch (N.order S)) (a : Nat) (st : Storer ι F) :
    (∃ st', (N.order S).foldlM (N.storeMapStep I (some a)) st = some st' ∧ (∀ n, Reach N.ch S n → tab0 a st' n = N.max I n ∧ (N.max I n).isSome) ∧
      FrameAt a (N.order S) st st') ∨
    ((N.order S).foldlM (N.storeMapStep I (some a)) st = none ∧ N.max I S = none) := by
  have hol := N.order_lists S
  rcases dp_fold (ch := N.ch) (R := N.max I) (tab0 a) (N.storeMapStep I (some a))
      (fun x s h => Net.storeMapStep_spec (fun n => Net.max_unfold hac I n) a x s h) [] (N.order S) st
      (by simpa using hcf) (by simp) with ⟨st', h1, h2, _⟩ | ⟨h1, n, hn, h2⟩
  · left
    exact ⟨st', h1, fun n hn => h2 n (by simpa using (hol.2 n).2 hn), foldlM_frame (fun _ _ _ h => Net.storeMapStep_frame h) _ _ _ h1⟩
  · right
    exact ⟨h1, Net.max_none_up hac ((hol.2 n).1 hn) h2⟩

/-- The ticket that `tk` stands for: a new one if it is negative. -/
def usedTicket (s : Storer ι F) (tk : Int) : Int := if tk < 0 then s.tickets else tk

/-- The storage a DP function works on: with a new table if the ticket is negative. -/
def dpStart (s : Storer ι F) (tk : Int) : Int × Storer ι F := if tk < 0 then s.newTicket else (tk, s)

theorem dpStart_spec {s : Storer ι F} (hw : s.WF) {tk : Int} (ht : tk < 0 ∨ s.table tk ≠ none) :
    (dpStart s tk).1 = usedTicket s tk ∧ ∃ a, (dpStart s tk).2.table (usedTicket s tk) = some a ∧ (dpStart s tk).2.WF ∧
      (∀ k, k ≠ usedTicket s tk → ∀ n i, (dpStart s tk).2.entry k n i = s.entry k n i) ∧
      (∀ n i, (dpStart s tk).2.entry (usedTicket s tk) n i = if tk < 0 then none else s.entry tk n i) := by
  unfold dpStart usedTicket
  by_cases h : tk < 0
  · simp only [h, if_true]
    refine ⟨rfl, s.next, by simp [Storer.newTicket, Storer.makeAt, Storer.table], Storer.newTicket_wf hw, ?_, ?_⟩
    · intro k hk n i
      simp only [Storer.newTicket, Storer.entry, Storer.makeAt, Function.update_of_ne hk]
      cases hs : s.tables k with
      | none => rfl
      | some b =>
        have : b ≠ s.next := by have := hw.alloc k b hs; omega
        simp [this]
    · intro n i
      simp [Storer.newTicket, Storer.entry, Storer.makeAt, Table.entry, Table.empty]
  · simp only [h, if_false]
    have ht' : s.table tk ≠ none := ht.resolve_left h
    obtain ⟨a, ha⟩ := Option.ne_none_iff_exists'.1 ht'
    exact ⟨trivial, a, ha, hw, by simp, by simp⟩

theorem frame_entries {s s1 : Storer ι F} (hw : s.WF) {k0 : Int} {a : Nat} (ha : s.table k0 = some a) {l : List ι} (hf : FrameAt a l s s1) :
    (∀ k, k ≠ k0 → ∀ n i, s1.entry k n i = s.entry k n i) ∧ (∀ n i, (n ∉ l ∨ i ≠ 0) → s1.entry k0 n i = s.entry k0 n i) ∧
    (∀ n, s1.entry k0 n 0 = tab0 a s1 n) := by
  have ha' : s.tables k0 = some a := ha
  refine ⟨?_, ?_, ?_⟩
  · intro k hk n i
    simp only [Storer.entry, hf.tables]
    cases hs : s.tables k with
    | none => rfl
    | some b =>
      have hba : b ≠ a := by rintro rfl; exact hk (hw.inj k k0 b hs ha')
      simp only [hf.others b hba]
  · intro n i hn
    simp only [Storer.entry, hf.tables, ha']
    exact hf.entries n i hn
  · intro n; simp only [Storer.entry, hf.tables, ha']; rfl

end Gospn
