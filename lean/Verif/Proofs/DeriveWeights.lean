import Verif.Proofs.DeriveLoop
set_option linter.unusedSectionVars false
namespace Gospn
open Spec

variable {ι : Type} [DecidableEq ι] [Fintype ι]

/-- Chain rule: the derivative with respect to a weight from the one with respect to the node's value. -/
theorem isWeightPartial_of_isPartial {N : Net ι XR} {S : ι} {p : ι → ℝ} (hac : Acyclic N.ch) (hp : IsValuation N S p) {n : ι} (hn : Reach N.ch S n) {d : ℝ}
    (h : IsPartial N S p n d)
    {cs : List ι} {r : List ℝ} (hk : N.kind n = .sum cs (r.map XR.fin)) (hlen : r.length = cs.length) {j : Nat} {c : ι} {a : ℝ} (hc : cs[j]? = some c)
    (ha : r[j]? = some a) : IsWeightPartial N S p n j a (d * p c) := by
  classical
  constructor
  · have hl : ∀ x : ℝ, LocalStep N.ch (fun (f : ι → ℝ) m => nodeValue (if m = n then setWeight (N.kind m) j x else N.kind m) (p m) f) := by
      intro x f g m h
      apply nodeValue_congr
      intro c hc
      apply h
      rw [← kindCh_eq]
      split at hc
      · rwa [setWeight_kindCh] at hc
      · exact hc
    exact ⟨fun x => dagRec (fun f m => nodeValue (if m = n then setWeight (N.kind m) j x else N.kind m) (p m) f) 0,
      fun x m _ => dagRec_unfold hac (hl x) 0 m⟩
  · intro v hv
    obtain ⟨⟨u, hu⟩, hd⟩ := h
    obtain ⟨rank, hr⟩ := id hac
    have hconst : ∀ x m, Reach N.ch S m → ¬ Reach N.ch m n → v x m = p m := by
      intro x m
      induction hm : rank m using Nat.strong_induction_on generalizing m with
      | _ k ih =>
        intro hreach hmn'
        have hmn : m ≠ n := by rintro rfl; exact hmn' Relation.ReflTransGen.refl
        rw [hv x m hreach, if_neg hmn]
        refine (nodeValue_congr _ _ ?_).trans (hp m hreach).1.symm
        intro c hc
        rw [kindCh_eq] at hc
        exact ih (rank c) (by rw [← hm]; exact hr m c hc) c rfl (reach_step hreach hc) (fun h => hmn' (Relation.ReflTransGen.head hc h))
    have hch : N.ch n = cs := by simp [Net.ch, hk]
    have hcc : ∀ x, ∀ c ∈ cs, v x c = p c := fun x c hc => hconst x c (reach_step hn (hch ▸ hc)) (not_reach_parent hac (hch ▸ hc))
    have hcm := List.mem_of_getElem? hc
    have hvn : HasDerivAt (fun x => v x n) (p c) a := by
      have : (fun x => v x n) = fun x => (List.zipWith (fun c w => realOf w * v x c) cs ((r.map XR.fin).set j (.fin x))).sum := by
        funext x
        rw [hv x n hn, if_pos rfl, hk]; rfl
      rw [this]
      have h := sumSet_deriv v (fun _ => 0) cs r j c a hlen hc ha (fun c hc => by
        have : (fun x => v x c) = fun _ => p c := by funext x; exact hcc x c hc
        rw [this]; exact hasDerivAt_const _ _)
      refine h.congr_deriv ?_
      simp [hcc a c hcm]
    have hva : v a n = p n := by
      rw [hv a n hn, if_pos rfl, hk]
      have : setWeight (.sum cs (r.map XR.fin)) j a = N.kind n := by
        rw [hk]; simp only [setWeight]
        rw [list_set_self _ j _ (by simp [ha])]
      rw [this]
      refine (nodeValue_congr _ _ ?_).trans (hp n hn).1.symm
      intro c hc
      rw [hk] at hc; exact hcc a c hc
    have huv : ∀ x m, Reach N.ch S m → v x m = u (v x n) m := by
      intro x m
      induction hm : rank m using Nat.strong_induction_on generalizing m with
      | _ k ih =>
        intro hreach
        by_cases hmn : m = n
        · subst hmn; exact ((hu _).1).symm
        · rw [hv x m hreach, if_neg hmn, (hu (v x n)).2 m hreach hmn]
          apply nodeValue_congr
          intro c hc
          rw [kindCh_eq] at hc
          exact ih (rank c) (by rw [← hm]; exact hr m c hc) c rfl (reach_step hreach hc)
    have hS : (fun x => v x S) = (fun y => u y S) ∘ fun x => v x n := by
      funext x; exact huv x S Relation.ReflTransGen.refl
    rw [hS]
    have h1 := hd u hu
    rw [← hva] at h1
    exact h1.comp a hvn

/-- The partial derivative is unique. -/
theorem isPartial_unique {N : Net ι XR} {S : ι} {p : ι → ℝ} {n : ι} {d e : ℝ} (h : IsPartial N S p n d) (h' : IsPartial N S p n e) : d = e := by
  obtain ⟨v, hv⟩ := h.1
  exact (h.2 v hv).unique (h'.2 v hv)

/-! ### Writing the weight derivatives -/
section Writes
variable {F : Type}

/-- `st'` differs from `st` only in the table at `a`. -/
structure OnlyAt (a : Nat) (st st' : Storer ι F) : Prop where
  tables : st'.tables = st.tables
  tickets : st'.tickets = st.tickets
  next : st'.next = st.next
  others : ∀ b, b ≠ a → st'.heap b = st.heap b
  ok : (∀ b, (st.heap b).OK) → ∀ b, (st'.heap b).OK

theorem OnlyAt.refl (a : Nat) (st : Storer ι F) : OnlyAt a st st := ⟨rfl, rfl, rfl, fun _ _ => rfl, id⟩

theorem OnlyAt.trans {a : Nat} {x y z : Storer ι F} (h1 : OnlyAt a x y) (h2 : OnlyAt a y z) : OnlyAt a x z :=
  ⟨h2.tables.trans h1.tables, h2.tickets.trans h1.tickets, h2.next.trans h1.next, fun b hb => (h2.others b hb).trans (h1.others b hb), fun h => h2.ok (h1.ok h)⟩

theorem OnlyAt.store {a : Nat} {st st' : Storer ι F} {s : ι} {l : Int} {v : F} (h : st.tableStore (some a) s l v = some st') : OnlyAt a st st' := by
  simp only [Storer.tableStore, Option.some.injEq] at h
  subst h
  refine ⟨rfl, rfl, rfl, fun b hb => by simp [hb], fun h b => ?_⟩
  by_cases hb : b = a
  · subst hb; simpa using Table.store_ok (h b) s l v
  · simpa [hb] using h b

theorem OnlyAt.wf {a : Nat} {st st' : Storer ι F} (h : OnlyAt a st st') (hw : st.WF) : st'.WF :=
  ⟨fun k b hk => by rw [h.next]; rw [h.tables] at hk; exact hw.alloc k b hk, fun k k' b hk hk' => by rw [h.tables] at hk hk'; exact hw.inj k k' b hk hk', h.ok hw.ok⟩

theorem store_heap {a : Nat} {st st' : Storer ι F} {s : ι} {l : Int} {v : F} (h : st.tableStore (some a) s l v = some st') (n : ι) (i : Int) :
    (st'.heap a).entry n i = if n = s ∧ i = l then some v else (st.heap a).entry n i := by
  simp only [Storer.tableStore, Option.some.injEq] at h
  subst h
  simp only [Function.update_self, Table.entry_store]

/-- Storing at the positions of the list of children of `s`. -/
theorem writeChildren {a : Nat} (st0 : Storer ι F) (s : ι) (val : ι → Option F → F) (g : Storer ι F → ι × Nat → Option (Storer ι F))
    (hg : ∀ st x, OnlyAt a st0 st → g st x = st.tableStore (some a) s x.2 (val x.1 ((st.heap a).entry s x.2))) :
    ∀ (cs : List ι) (k : Nat) (st : Storer ι F), OnlyAt a st0 st →
      ∃ st', (cs.zipIdx k).foldlM g st = some st' ∧ OnlyAt a st0 st' ∧
        (∀ i c, cs[i]? = some c → (st'.heap a).entry s ((i + k : Nat) : Int) = some (val c ((st.heap a).entry s ((i + k : Nat) : Int)))) ∧
        (∀ n l, (n ≠ s ∨ ∀ i, i < cs.length → l ≠ ((i + k : Nat) : Int)) → (st'.heap a).entry n l = (st.heap a).entry n l) := by
  intro cs
  induction cs with
  | nil => intro k st h; exact ⟨st, rfl, h, by simp, by simp⟩
  | cons c cs ih =>
    intro k st hst
    obtain ⟨st1, h1⟩ : ∃ st1, st.tableStore (some a) s k (val c ((st.heap a).entry s k)) = some st1 := ⟨_, rfl⟩
    have hs1 := store_heap h1
    obtain ⟨st', g1, g2, g3, g4⟩ := ih (k + 1) st1 (hst.trans (OnlyAt.store h1))
    refine ⟨st', ?_, g2, ?_, ?_⟩
    · simp only [List.zipIdx_cons, List.foldlM_cons, hg st (c, k) hst, h1]; exact g1
    · intro i d hd
      cases i with
      | zero =>
        simp at hd; subst hd
        rw [g4 _ _ (Or.inr (fun i _ => by omega)), hs1]; simp
      | succ i =>
        simp at hd
        have := g3 i d hd
        rw [show i + 1 + k = i + (k + 1) by omega, this, hs1, if_neg (by omega)]
    · intro n l hnl
      rw [g4 n l (hnl.imp_right (fun h i hi => by have := h (i + 1) (by simpa using hi); rwa [show i + 1 + k = i + (k + 1) by omega] at this)), hs1, if_neg]
      rintro ⟨rfl, rfl⟩
      rcases hnl with h | h
      · exact h rfl
      · exact h 0 (by simp) (by simp)

/-- The entries that the loops write: those of sum nodes at child positions. -/
def isSlot (N : Net ι F) (n : ι) (l : Int) (c : ι) : Prop := N.type n = .sum ∧ ∃ i : Nat, l = i ∧ (N.ch n)[i]? = some c

theorem writeLoop {a : Nat} {N : Net ι F} (st0 : Storer ι F) (val : ι → ι → Option F → F) (step : Storer ι F → ι → Option (Storer ι F))
    (g : ι → Storer ι F → ι × Nat → Option (Storer ι F))
    (hstep : ∀ st s, OnlyAt a st0 st → step st s = if N.type s = .sum then (N.ch s).zipIdx.foldlM (g s) st else some st)
    (hg : ∀ s st x, OnlyAt a st0 st → g s st x = st.tableStore (some a) s x.2 (val s x.1 ((st.heap a).entry s x.2))) :
    ∀ (L : List ι) (st : Storer ι F), L.Nodup → OnlyAt a st0 st →
      ∃ st', L.foldlM step st = some st' ∧ OnlyAt a st0 st' ∧
        (∀ n ∈ L, ∀ l c, isSlot N n l c → (st'.heap a).entry n l = some (val n c ((st.heap a).entry n l))) ∧
        (∀ n l, (n ∉ L ∨ ∀ c, ¬ isSlot N n l c) → (st'.heap a).entry n l = (st.heap a).entry n l) := by
  intro L
  induction L with
  | nil => intro st _ h; exact ⟨st, rfl, h, by simp, by simp⟩
  | cons s L ih =>
    intro st hnd hst
    obtain ⟨hsL, hnd⟩ := List.nodup_cons.1 hnd
    obtain ⟨st1, h1, h2, h3, h4⟩ : ∃ st1, step st s = some st1 ∧ OnlyAt a st0 st1 ∧
        (∀ l c, isSlot N s l c → (st1.heap a).entry s l = some (val s c ((st.heap a).entry s l))) ∧
        (∀ n l, (n ≠ s ∨ ∀ c, ¬ isSlot N n l c) → (st1.heap a).entry n l = (st.heap a).entry n l) := by
      rw [hstep st s hst]
      by_cases ht : N.type s = .sum
      · rw [if_pos ht]
        obtain ⟨st1, g1, g2, g3, g4⟩ := writeChildren st0 s (val s) (g s) (fun st x h => hg s st x h) (N.ch s) 0 st hst
        refine ⟨st1, g1, g2, ?_, ?_⟩
        · rintro l c ⟨_, i, rfl, hi⟩
          simpa using g3 i c hi
        · intro n l hn
          apply g4
          by_cases hns : n = s
          · right
            intro i hi hl
            refine (hn.resolve_left (by simpa using hns)) (N.ch s)[i] ⟨by rw [hns]; exact ht, i, by simpa using hl, ?_⟩
            rw [hns]; exact List.getElem?_eq_getElem hi
          · exact Or.inl hns
      · rw [if_neg ht]
        exact ⟨st, rfl, hst, fun l c h => absurd h.1 ht, fun _ _ _ => rfl⟩
    obtain ⟨st', g1, g2, g3, g4⟩ := ih st1 hnd h2
    refine ⟨st', by rw [List.foldlM_cons, h1]; exact g1, g2, ?_, ?_⟩
    · intro n hn l c hsl
      rcases List.mem_cons.1 hn with rfl | hn'
      · rw [g4 n l (Or.inl hsL)]; exact h3 l c hsl
      · rw [g3 n hn' l c hsl, h4 n l (Or.inl (by rintro rfl; exact hsL hn'))]
    · intro n l hn
      rw [g4 n l (hn.imp_left (fun h h' => h (by simp [h']))), h4]
      exact hn.imp_left (fun h h' => h (by simp [h']))

theorem deref_table (st : Storer ι F) (k : Int) (n : ι) (i : Int) : (st.deref (st.table k)).entry n i = st.entry k n i := by
  unfold Storer.deref Storer.table Storer.entry
  cases st.tables k <;> rfl

/-- Tables other than the one at `a` read the same. -/
theorem OnlyAt.deref {a : Nat} {st st' : Storer ι F} (h : OnlyAt a st st') {hd : Option Nat} (hne : hd ≠ some a) : st'.deref hd = st.deref hd := by
  cases hd with
  | none => rfl
  | some b => exact h.others b (fun hb => hne (by rw [hb]))

theorem OnlyAt.entry {a : Nat} {st st' : Storer ι F} (h : OnlyAt a st st') (hw : st.WF) {k0 : Int} (ha : st.table k0 = some a) (k : Int) (hk : k ≠ k0) (n : ι) (i : Int) :
    st'.entry k n i = st.entry k n i := by
  simp only [Storer.entry, h.tables]
  cases hs : st.tables k with
  | none => rfl
  | some b =>
    have hba : b ≠ a := by rintro rfl; exact hk (hw.inj k k0 b hs ha)
    simp only [h.others b hba]

theorem OnlyAt.entry_at {a : Nat} {st st' : Storer ι F} (h : OnlyAt a st st') {k0 : Int} (ha : st.table k0 = some a) (n : ι) (i : Int) :
    st'.entry k0 n i = (st'.heap a).entry n i := by
  have ha' : st.tables k0 = some a := ha
  simp only [Storer.entry, h.tables, ha']

end Writes
end Gospn

namespace Gospn
open Spec
variable {ι : Type} [DecidableEq ι] [Fintype ι]

theorem prob_isValuation {N : Net ι XR} {S : ι} {I : VarSet} (hac : Acyclic N.ch) (hwt : NonnegWeights N S) (hl : LeavesEval N S I) : IsValuation N S (N.prob I) := by
  intro m hm
  obtain ⟨⟨x, hx, hx1, hx2⟩, h2, h3⟩ := Net.prob_spec hac hwt hl hm
  refine ⟨?_, by rw [← hx2]; exact unlog_nonneg x⟩
  cases hk : N.kind m with
  | leaf l => rfl
  | product cs => exact h2 cs hk
  | sum cs w =>
    obtain ⟨_, r, rfl, hlen, _⟩ := hwt m hm cs w hk
    rw [h3 cs r hk]
    simp only [nodeValue, wsum]
    congr 1
    clear h2 h3 hk hlen
    have key : ∀ (cs : List ι) (r : List ℝ), List.zipWith (fun x y => x * y) r (cs.map (N.prob I)) = List.zipWith (fun c w => realOf w * N.prob I c) cs (r.map XR.fin) := by
      intro cs
      induction cs with
      | nil => intro r; simp
      | cons c cs ih =>
        intro r
        cases r with
        | nil => simp
        | cons a r => simp only [List.map_cons, List.zipWith_cons_cons, ih r]; rfl
    exact key cs r

/-- `st'` has the same tables as `st`, with other contents. -/
def SameTables {F : Type} (st st' : Storer ι F) : Prop :=
  st'.tables = st.tables ∧ st'.tickets = st.tickets ∧ st'.next = st.next ∧ ((∀ b, (st.heap b).OK) → ∀ b, (st'.heap b).OK)

theorem SameTables.store {F : Type} {st st' : Storer ι F} {h : Option Nat} {s : ι} {l : Int} {v : F} (hs : st.tableStore h s l v = some st') : SameTables st st' := by
  cases h with
  | none => simp [Storer.tableStore] at hs
  | some a => have := OnlyAt.store hs; exact ⟨this.tables, this.tickets, this.next, this.ok⟩

theorem SameTables.trans {F : Type} {x y z : Storer ι F} (h1 : SameTables x y) (h2 : SameTables y z) : SameTables x z :=
  ⟨h2.1.trans h1.1, h2.2.1.trans h1.2.1, h2.2.2.1.trans h1.2.2.1, fun h => h2.2.2.2 (h1.2.2.2 h)⟩

theorem SameTables.wf {F : Type} {st st' : Storer ι F} (h : SameTables st st') (hw : st.WF) : st'.WF :=
  ⟨fun k b hk => by rw [h.2.2.1]; rw [h.1] at hk; exact hw.alloc k b hk, fun k k' b hk hk' => by rw [h.1] at hk hk'; exact hw.inj k k' b hk hk', h.2.2.2 hw.ok⟩

theorem storeInfStep_same {F : Type} [GoFloat F] {N : Net ι F} {I : VarSet} {h : Option Nat} {st st' : Storer ι F} {s : ι} {b : Bool}
    (hs : N.storeInfStep I h st s = some (st', b)) : SameTables st st' := by
  unfold Net.storeInfStep at hs
  cases hk : N.kind s with
  | leaf l =>
    simp only [hk, Option.bind_eq_some_iff, Option.map_eq_some_iff, Prod.mk.injEq] at hs
    obtain ⟨v, _, x, hx, rfl, _⟩ := hs
    exact SameTables.store hx
  | product cs =>
    simp only [hk, Option.map_eq_some_iff, Prod.mk.injEq] at hs
    obtain ⟨x, hx, rfl, _⟩ := hs
    exact SameTables.store hx
  | sum cs w =>
    simp only [hk, Option.bind_eq_some_iff] at hs
    obtain ⟨r, _, hs⟩ := hs
    cases r with
    | none => simp at hs; rw [← hs.1]; exact ⟨rfl, rfl, rfl, id⟩
    | some vs =>
      simp only [Option.bind_eq_some_iff, Option.map_eq_some_iff, Prod.mk.injEq] at hs
      obtain ⟨v, _, x, hx, rfl, _⟩ := hs
      exact SameTables.store hx

theorem storeInfLoop_same {F : Type} [GoFloat F] {N : Net ι F} {I : VarSet} {h : Option Nat} : ∀ (l : List ι) {st st' : Storer ι F} {b : Bool},
    N.storeInfLoop I h st l = some (st', b) → SameTables st st' := by
  intro l
  induction l with
  | nil => intro st st' b hs; simp [Net.storeInfLoop] at hs; rw [← hs.1]; exact ⟨rfl, rfl, rfl, id⟩
  | cons s l ih =>
    intro st st' b hs
    simp only [Net.storeInfLoop] at hs
    split at hs
    · cases hs
    · rename_i x hx
      simp at hs; rw [← hs.1]; exact storeInfStep_same hx
    · rename_i x hx
      exact (storeInfStep_same hx).trans (ih hs)

theorem storeInference_wf {F : Type} [GoFloat F] {N : Net ι F} {S : ι} {I : VarSet} {st st' : Storer ι F} (hw : st.WF) {r : Option (ι × Int)}
    (h : N.storeInference S I (-1) st = some (r, st')) (hS : N.ch S ≠ []) : st'.WF ∧ st'.tickets = st.tickets + 1 := by
  unfold Net.storeInference at h
  rw [if_neg (by simpa using hS)] at h
  simp only [show (-1 : Int) < 0 by omega, if_true] at h
  have hn := Storer.newTicket_wf hw
  have ht : st.newTicket.2.tickets = st.tickets + 1 := rfl
  have key : ∀ b x, N.storeInfLoop I (st.newTicket.2.table st.newTicket.1) st.newTicket.2 (N.order S) = some (x, b) → x.WF ∧ x.tickets = st.tickets + 1 := by
    intro b x hx
    have := storeInfLoop_same _ hx
    exact ⟨this.wf hn, by rw [this.2.1, ht]⟩
  cases hl : N.storeInfLoop I (st.newTicket.2.table st.newTicket.1) st.newTicket.2 (N.order S) with
  | none => simp [hl] at h
  | some q =>
    obtain ⟨x, b⟩ := q
    cases b <;> simp [hl] at h <;> (rw [← h.2]; exact key _ _ hl)

end Gospn
