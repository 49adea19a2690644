import Verif.Proofs.LearnShape
import Verif.Props.Discr
/-
The soft discriminative loops return, for any floating point arithmetic.
-/
set_option linter.unusedSectionVars false
set_option linter.unusedSimpArgs false
namespace Gospn
open Spec GoFloat

namespace Spec
/-- Below `S`, every sum node has a weight for each of its children. -/
def EnoughWeights {ι F : Type} (N : Net ι F) (S : ι) : Prop := ∀ n, Reach N.ch S n → ∀ cs w, N.kind n = .sum cs w → cs.length ≤ w.length

/-- No leaf below `S` panics when it is evaluated under `I`. -/
def LeavesReturn {ι F : Type} [GoFloat F] (N : Net ι F) (S : ι) (I : VarSet) : Prop := ∀ n, Reach N.ch S n → ∀ l, N.kind n = .leaf l → l.value I ≠ none
end Spec

variable {ι F : Type} [DecidableEq ι] [GoFloat F] [Fintype ι]

theorem Spec.OnlyWeights.enough {S : ι} {N N' : Net ι F} (h : OnlyWeights S N N') (hw : EnoughWeights N S) : EnoughWeights N' S := by
  intro n hn cs w' hk
  obtain ⟨w, h1, h2, _⟩ := h.sum' hk
  rw [h2]
  exact hw n (by rw [← h.ch]; exact hn) cs w h1

theorem Spec.OnlyWeights.leavesReturn {S : ι} {N N' : Net ι F} (h : OnlyWeights S N N') {I : VarSet} (hl : LeavesReturn N S I) : LeavesReturn N' S I :=
  fun n hn l hk => hl n (by rw [← h.ch]; exact hn) l (h.leaf.1 hk)

theorem storeVals_total (single : ι → Option F) : ∀ (cs : List ι) (w : List F), cs.length ≤ w.length → ∃ r, storeVals single cs w = some r ∧ ∀ vs, r = some vs → vs.length = cs.length := by
  intro cs
  induction cs with
  | nil => intro w _; exact ⟨some [], by simp [storeVals], by simp⟩
  | cons c cs ih =>
    intro w hw
    cases w with
    | nil => simp at hw
    | cons w0 w =>
      obtain ⟨r, h1, h2⟩ := ih w (by simpa using hw)
      unfold storeVals
      cases single c with
      | none => exact ⟨none, rfl, by simp⟩
      | some v =>
        refine ⟨r.map (add v (log w0) :: ·), by simp [h1], ?_⟩
        intro vs hvs
        cases r with
        | none => simp at hvs
        | some x => simp at hvs; subst hvs; simp [h2 x rfl]

theorem storeInfStep_total {N : Net ι F} {S s : ι} (hs : Reach N.ch S s) {I : VarSet} (hw : EnoughWeights N S) (hl : LeavesReturn N S I) (a : Nat) (st : Storer ι F) :
    ∃ r, N.storeInfStep I (some a) st s = some r := by
  unfold Net.storeInfStep
  cases hk : N.kind s with
  | leaf l =>
    obtain ⟨v, hv⟩ := Option.ne_none_iff_exists'.1 (hl s hs l hk)
    simp [hv, Storer.tableStore]
  | product cs => simp [Storer.tableStore]
  | sum cs w =>
    obtain ⟨r, h1, h2⟩ := storeVals_total (fun c => (st.deref (some a)).entry c 0) cs w (hw s hs cs w hk)
    simp only [h1, Option.bind_some]
    cases r with
    | none => exact ⟨_, rfl⟩
    | some vs =>
      have := h2 vs rfl
      by_cases hc : cs.length = 0
      · simp [hc, Storer.tableStore]
      · cases vs with
        | nil => simp at this; exact absurd this.symm hc
        | cons v vs =>
          have : ∃ x, logSumExp (v :: vs) = some x := by
            unfold logSumExp
            dsimp only
            split <;> exact ⟨_, rfl⟩
          obtain ⟨x, hx⟩ := this
          simp [hc, hx, Storer.tableStore]

theorem storeInfLoop_total {N : Net ι F} {S : ι} {I : VarSet} (hw : EnoughWeights N S) (hl : LeavesReturn N S I) (a : Nat) : ∀ (l : List ι) (st : Storer ι F), (∀ n ∈ l, Reach N.ch S n) →
    ∃ r, N.storeInfLoop I (some a) st l = some r := by
  intro l
  induction l with
  | nil => intro st _; exact ⟨_, rfl⟩
  | cons s l ih =>
    intro st h
    obtain ⟨⟨st1, b⟩, hr⟩ := storeInfStep_total (h s (by simp)) hw hl a st
    unfold Net.storeInfLoop
    rw [hr]
    cases b with
    | false => exact ⟨_, rfl⟩
    | true => exact ih st1 (fun n hn => h n (by simp [hn]))

theorem storeInference_total {N : Net ι F} {S : ι} {I : VarSet} (hw : EnoughWeights N S) (hl : LeavesReturn N S I) {tk : Int} (h0 : 0 ≤ tk) {st : Storer ι F} {a : Nat} (ha : st.table tk = some a) :
    ∃ r, N.storeInference S I tk st = some r := by
  unfold Net.storeInference
  split
  · exact ⟨_, rfl⟩
  · rw [if_neg (by omega)]
    obtain ⟨⟨st1, b⟩, hr⟩ := storeInfLoop_total hw hl a (N.order S) st (fun n hn => ((N.order_lists S).2 n).1 hn)
    simp only [ha, hr]
    cases b <;> exact ⟨_, rfl⟩

theorem deriveStore_total (a : Nat) (st : Storer ι F) (c : ι) (t : F) : ∃ st', deriveStore (some a) st c t = some st' := by
  unfold deriveStore
  split <;> exact ⟨_, rfl⟩

theorem foldlM_total {σ α : Type} {f : σ → α → Option σ} (l : List α) (x : σ) (h : ∀ a ∈ l, ∀ x, ∃ y, f x a = some y) : ∃ y, l.foldlM f x = some y := by
  obtain ⟨y, h1, _⟩ := foldlM_inv (P := fun _ => True) (f := f) l x (fun a ha x _ => by obtain ⟨y, hy⟩ := h a ha x; exact ⟨y, hy, trivial⟩) trivial
  exact ⟨y, h1⟩

theorem deriveSPN_total {N : Net ι F} {S : ι} (hw : EnoughWeights N S) {tk itk : Int} (h0 : 0 ≤ tk) {st : Storer ι F} {a : Nat} (ha : st.table tk = some a) (isStack : Bool) :
    ∃ r, N.deriveSPN S st tk itk isStack = some r := by
  unfold Net.deriveSPN
  have hn : newIfNeg tk st = (tk, st) := by unfold newIfNeg; rw [if_neg (by omega)]
  rw [hn]
  simp only [ha]
  have hst : ∃ st1, st.tableStore (some a) S 0 (ofInt 0) = some st1 := ⟨_, rfl⟩
  obtain ⟨st1, hst⟩ := hst
  rw [hst, Option.bind_some, work_static _ (N.deriveStep (some a) (st.table itk)) N.innerCh (fun _ _ => rfl)]
  have : ∃ y, (workOrder N.innerCh isStack S).foldlM (N.deriveStep (some a) (st.table itk)) st1 = some y := by
    apply foldlM_total
    intro s hs x
    have hs : Reach N.ch S s := innerReach_sub (((workOrder_lists N.innerCh isStack S).2 s).1 hs)
    unfold Net.deriveStep
    cases hk : N.kind s with
    | leaf l => exact ⟨_, rfl⟩
    | sum cs w =>
      dsimp only
      apply foldlM_total
      rintro ⟨c, i⟩ hc x
      have hi : i < w.length := by
        have := (List.getElem?_eq_some_iff.1 (List.mk_mem_zipIdx_iff_getElem?.1 hc)).1
        have := hw s hs cs w hk
        omega
      dsimp only
      rw [List.getElem?_eq_getElem hi, Option.bind_some]
      exact deriveStore_total _ _ _ _
    | product cs =>
      dsimp only
      apply foldlM_total
      rintro ⟨c, i⟩ hc x
      exact deriveStore_total _ _ _ _
  obtain ⟨y, hy⟩ := this
  exact ⟨_, by rw [hy]; rfl⟩

theorem deriveWeights_total {N : Net ι F} {S : ι} {tk dtk itk : Int} (h0 : 0 ≤ tk) {st : Storer ι F} {a : Nat} (ha : st.table tk = some a) (isStack : Bool) :
    ∃ r, N.deriveWeights S st tk dtk itk isStack = some r := by
  unfold Net.deriveWeights
  have hn : newIfNeg tk st = (tk, st) := by unfold newIfNeg; rw [if_neg (by omega)]
  rw [hn]
  simp only [ha]
  rw [work_static _ (N.deriveWStep (some a) (st.table dtk) (st.table itk)) N.innerCh (fun _ _ => rfl)]
  have : ∃ y, (workOrder N.innerCh isStack S).foldlM (N.deriveWStep (some a) (st.table dtk) (st.table itk)) st = some y := by
    apply foldlM_total
    intro s hs x
    unfold Net.deriveWStep
    dsimp only
    split
    · apply foldlM_total
      rintro ⟨c, i⟩ hc x
      exact ⟨_, rfl⟩
    · exact ⟨_, rfl⟩
  obtain ⟨y, hy⟩ := this
  exact ⟨_, by rw [hy]; rfl⟩

theorem dgdTables_total {S : ι} {N : Net ι F} {ks : List Int} {st : Storer ι F} (h : Sound (Reach N.ch S) ks st) (hwt : EnoughWeights N S) {Y : List Int} {s d w z p u : Int} (hs : s ∈ ks) (hd : d ∈ ks)
    (hw : w ∈ ks) (hz : z ∈ ks) (hp : p ∈ ks) (hu : u ∈ ks) {I : VarSet} (hl : LeavesReturn N S I) (hl' : LeavesReturn N S (pullValues I Y).1) :
    ∃ r, N.dgdTables S Y s d w z p u st I = some r := by
  unfold Net.dgdTables
  obtain ⟨a, ha, h0⟩ := h.get hs
  obtain ⟨r1, e1⟩ := storeInference_total hwt hl h0 ha
  have s1 := h.inference hs e1
  obtain ⟨a, ha, h0⟩ := s1.get hd
  obtain ⟨r2, e2⟩ := deriveSPN_total (itk := s) hwt h0 ha false
  have s2 := s1.derive hd e2
  obtain ⟨a, ha, h0⟩ := s2.get hw
  obtain ⟨r3, e3⟩ := deriveWeights_total (N := N) (S := S) (dtk := d) (itk := s) h0 ha false
  have s3 := s2.weights hw e3
  obtain ⟨a, ha, h0⟩ := s3.get hz
  obtain ⟨r4, e4⟩ := storeInference_total hwt hl' h0 ha
  have s4 := s3.inference hz e4
  obtain ⟨a, ha, h0⟩ := s4.get hp
  obtain ⟨r5, e5⟩ := deriveSPN_total (itk := z) hwt h0 ha false
  have s5 := s4.derive hp e5
  obtain ⟨a, ha, h0⟩ := s5.get hu
  obtain ⟨r6, e6⟩ := deriveWeights_total (N := N) (S := S) (dtk := p) (itk := z) h0 ha false
  exact ⟨(r6.2, (pullValues I Y).1, (pullValues I Y).2), by simp only [e1, e2, e3, e4, e5, e6, Option.bind_some, Option.map_some]⟩

theorem card_fuel (S : ι) : ∃ k, Fintype.card ι + 1 = k + 2 := by
  have : 0 < Fintype.card ι := Fintype.card_pos_iff.2 ⟨S⟩
  exact ⟨Fintype.card ι - 1, by omega⟩

theorem root_not_child {N : Net ι F} (hac : Acyclic N.ch) (S : ι) : S ∉ N.ch S := fun h => by obtain ⟨r, hr⟩ := hac; exact Nat.lt_irrefl _ (hr S S h)

theorem dgdInstance_total {S : ι} {N0 : Net ι F} {ks : List Int} {x : Net ι F × Storer ι F} (h : Kept S N0 ks x) (hac : Acyclic x.1.ch) (hwt : EnoughWeights x.1 S) (P : Params F) (eta : F) {Y : List Int}
    (norm : Bool) {s d w z p u : Int} (hs : s ∈ ks) (hd : d ∈ ks) (hw : w ∈ ks) (hz : z ∈ ks) (hp : p ∈ ks) (hu : u ∈ ks) {I : VarSet} (hl : LeavesReturn x.1 S I)
    (hl' : LeavesReturn x.1 S (pullValues I Y).1) : ∃ y, Net.dgdInstance S P eta Y norm s d w z p u x I = some y := by
  unfold Net.dgdInstance
  obtain ⟨r, hr⟩ := dgdTables_total h.sound hwt hs hd hw hz hp hu hl hl'
  obtain ⟨k, hk⟩ := card_fuel S
  rw [hk]
  obtain ⟨N', hN, _⟩ := C34_refuted x.1 S hac s w z u r.1 eta P.lambda (ofInt 1) norm k
  exact ⟨_, by rw [hr, Option.bind_some, hN, Option.map_some]⟩

/-- The entries of ticket `l` are at indices of weights. -/
def InRange (N : Net ι F) (l : Int) (st : Storer ι F) : Prop := ∀ n i, st.entry l n i ≠ none → 0 ≤ i ∧ i < ((N.weights n).length : Int)

theorem InRange.only {S : ι} {N N' : Net ι F} {l : Int} {st : Storer ι F} (h : InRange N l st) (ho : OnlyWeights S N N') : InRange N' l st := by
  intro n i hi
  have : (N'.weights n).length = (N.weights n).length := by
    cases hk : N.kind n with
    | sum cs w =>
      obtain ⟨w', h1, h2, _⟩ := ho.sum hk
      simp [Net.weights, hk, h1, h2]
    | product cs => simp [Net.weights, hk, ho.product.2 hk]
    | leaf lf => simp [Net.weights, hk, ho.leaf.2 hk]
  rw [this]
  exact h n i hi

theorem InRange.writes {N : Net ι F} {l k : Int} {R : ι → Prop} {a : Nat} {st st' : Storer ι F} (h : InRange N l st) (hwf : st.WF) (hne : k ≠ l) (ha : st.table k = some a) (hw : Writes a R st st') :
    InRange N l st' := by
  intro n i hi
  rw [hw.entry (Or.inl (fun hc => hne (hwf.inj _ _ _ ha hc)))] at hi
  exact h n i hi

theorem InRange.reset {N : Net ι F} {l : Int} {st : Storer ι F} (h : InRange N l st) (hwf : st.WF) (k : Int) : InRange N l (st.reset k) := by
  intro n i hi
  rw [reset_entry hwf] at hi
  split at hi
  · exact absurd rfl hi
  · exact h n i hi

theorem InRange.resetTickets {N : Net ι F} {l : Int} (ks : List Int) : ∀ {st : Storer ι F}, st.WF → InRange N l st → InRange N l (st.resetTickets ks) := by
  induction ks with
  | nil => intro st _ h; exact h
  | cons k ks ih => intro st hwf h; exact ih (Storer.reset_wf hwf k) (h.reset hwf k)

theorem dgdTables_range {S : ι} {N : Net ι F} {ks : List Int} {st : Storer ι F} (h : Sound (Reach N.ch S) ks st) {l : Int} (hr : InRange N l st) {Y : List Int} {s d w z p u : Int} (hs : s ∈ ks) (hd : d ∈ ks)
    (hw : w ∈ ks) (hz : z ∈ ks) (hp : p ∈ ks) (hu : u ∈ ks) (hns : l ∉ [s, d, w, z, p, u]) {I : VarSet} {r : Storer ι F × VarSet × List Int} (he : N.dgdTables S Y s d w z p u st I = some r) :
    InRange N l r.1 := by
  unfold Net.dgdTables at he
  simp only [Option.bind_eq_some_iff, Option.map_eq_some_iff] at he
  obtain ⟨r1, e1, r2, e2, r3, e3, r4, e4, r5, e5, r6, e6, rfl⟩ := he
  simp only [List.mem_cons, List.not_mem_nil, or_false, not_or] at hns
  obtain ⟨n1, n2, n3, n4, n5, n6⟩ := hns
  obtain ⟨a, ha, h0⟩ := h.get hs
  have q1 := hr.writes h.wf (Ne.symm n1) ha (storeInference_writes h0 ha e1)
  have s1 := h.inference hs e1
  obtain ⟨a, ha, h0⟩ := s1.get hd
  have q2 := q1.writes s1.wf (Ne.symm n2) ha (deriveSPN_writes h0 ha e2)
  have s2 := s1.derive hd e2
  obtain ⟨a, ha, h0⟩ := s2.get hw
  have q3 := q2.writes s2.wf (Ne.symm n3) ha (deriveWeights_writes h0 ha e3)
  have s3 := s2.weights hw e3
  obtain ⟨a, ha, h0⟩ := s3.get hz
  have q4 := q3.writes s3.wf (Ne.symm n4) ha (storeInference_writes h0 ha e4)
  have s4 := s3.inference hz e4
  obtain ⟨a, ha, h0⟩ := s4.get hp
  have q5 := q4.writes s4.wf (Ne.symm n5) ha (deriveSPN_writes h0 ha e5)
  have s5 := s4.derive hp e5
  obtain ⟨a, ha, h0⟩ := s5.get hu
  exact q5.writes s5.wf (Ne.symm n6) ha (deriveWeights_writes h0 ha e6)

theorem dgdStore_range {N : Net ι F} {l : Int} {a : Nat} {n : ι} (dW dU iS iZ : Int → F) {st : Storer ι F} (ha : st.table l = some a) (hwf : st.WF) (hr : InRange N l st) :
    ∃ st', dgdStore (some a) n dW dU iS iZ (N.weights n).length st = some st' ∧ InRange N l st' := by
  unfold dgdStore
  have key : ∀ i ∈ List.range (N.weights n).length, ∀ x : Storer ι F, (x.table l = some a ∧ x.WF ∧ InRange N l x) →
      ∃ y, x.tableStore (some a) n i (add (((x.deref (some a)).entry n i).getD (ofInt 0)) (sub (exp (sub (dW i) (iS i))) (exp (sub (dU i) (iZ i))))) = some y ∧
        (y.table l = some a ∧ y.WF ∧ InRange N l y) := by
    rintro i hi x ⟨h1, h2, h3⟩
    have hs : ∃ y, x.tableStore (some a) n i (add (((x.deref (some a)).entry n i).getD (ofInt 0)) (sub (exp (sub (dW i) (iS i))) (exp (sub (dU i) (iZ i))))) = some y := ⟨_, rfl⟩
    obtain ⟨y, hy⟩ := hs
    have hw := Writes.store (R := fun _ => True) trivial hy
    refine ⟨y, hy, by rw [show y.table l = x.table l from congrFun hw.tables l, h1], hw.wf h2, ?_⟩
    intro m j hj
    simp only [Storer.tableStore, Option.some.injEq] at hy
    subst hy
    have h1' : x.tables l = some a := h1
    simp only [Storer.entry, h1', Function.update_self, Table.entry_store] at hj
    split at hj
    · rename_i hc
      obtain ⟨rfl, rfl⟩ := hc
      simp only [List.mem_range] at hi
      omega
    · exact h3 m j (by simpa only [Storer.entry, h1'] using hj)
  obtain ⟨y, h1, h2⟩ := foldlM_inv (P := fun x : Storer ι F => x.table l = some a ∧ x.WF ∧ InRange N l x) _ st key ⟨ha, hwf, hr⟩
  exact ⟨y, h1, h2.2.2⟩

theorem storeDGD_total {N : Net ι F} {S : ι} (hac : Acyclic N.ch) {ks : List Int} {st : Storer ι F} (h : Sound (Reach N.ch S) ks st) {s w z u l : Int} (hl : l ∈ ks) (hr : InRange N l st) :
    ∃ st', N.storeDGD S s w z u l st (Fintype.card ι + 1) = some st' ∧ InRange N l st' := by
  obtain ⟨k, hk⟩ := card_fuel S
  obtain ⟨a, ha, _⟩ := h.get hl
  unfold Net.storeDGD
  rw [hk, dgdLoop_root _ (root_not_child hac S)]
  split
  · rw [ha]
    obtain ⟨st', h1, h2⟩ := dgdStore_range (n := S) ((st.deref (st.table w)).getInner S) ((st.deref (st.table u)).getInner S) ((st.deref (st.table s)).getInner S)
      ((st.deref (st.table z)).getInner S) ha h.wf hr
    exact ⟨st', by simpa using h1, h2⟩
  · exact ⟨st, rfl, hr⟩

theorem applyReset_total {N : Net ι F} {st : Storer ι F} {l : Int} (hr : InRange N l st) (f : F → F → F) (norm : Bool) {mo : RangeOrder ι F} (ho : RangesAll mo) :
    ∃ N', Net.applyReset f l norm mo (N, st) = some (N', st.reset l) := by
  obtain ⟨N', h1, _⟩ := applyFast_spec N f norm ho st.next (st.deref (st.table l)) (by
    intro s cs w hk m hm i hi
    have := hr s i (by rw [← deref_table, Table.entry, hm]; exact hi)
    simpa [Net.weights, hk] using this)
  exact ⟨N', by simp only [Net.applyReset, h1, Option.map_some]⟩

theorem dbgdInstance_total {S : ι} {N0 : Net ι F} {ks : List Int} {x : (Net ι F × Storer ι F) × Int} (h : Kept S N0 ks x.1) (hac : Acyclic x.1.1.ch) (hwt : EnoughWeights x.1.1 S) (P : Params F) (eta : F)
    {Y : List Int} (norm : Bool) {b : Int} (hb : b ≠ 0) {mo : RangeOrder ι F} (ho : RangesAll mo) {s d w z p u l : Int} (hs : s ∈ ks) (hd : d ∈ ks) (hw : w ∈ ks) (hz : z ∈ ks) (hp : p ∈ ks)
    (hu : u ∈ ks) (hlk : l ∈ ks) (hns : l ∉ [s, d, w, z, p, u]) (hr : InRange x.1.1 l x.1.2) {I : VarSet} (hl : LeavesReturn x.1.1 S I) (hl' : LeavesReturn x.1.1 S (pullValues I Y).1) :
    ∃ y, Net.dbgdInstance S P eta Y norm b mo s d w z p u l x I = some y ∧ InRange y.1.1.1 l y.1.1.2 := by
  obtain ⟨r, e1⟩ := dgdTables_total h.sound hwt hs hd hw hz hp hu hl hl'
  have s1 := (dgdTables_sound h.sound hs hd hw hz hp hu e1).1
  have q1 := dgdTables_range h.sound hr hs hd hw hz hp hu hns e1
  obtain ⟨st, e2, q2⟩ := storeDGD_total (s := s) (w := w) (z := z) (u := u) hac s1 hlk q1
  have s2 := s1.dgd hlk e2
  have q3 := q2.resetTickets [s, d, w, z, p, u] s2.wf
  have s3 := s2.resetTickets [s, d, w, z, p, u]
  unfold Net.dbgdInstance
  simp only [e1, e2, Option.bind_some, goDvd, if_neg hb]
  by_cases hq : (x.2 + 1).tmod b = 0
  · obtain ⟨N', e3⟩ := applyReset_total q3 (dgdFromWeight eta P.lambda (ofInt b)) norm ho
    refine ⟨_, by simp only [hq, decide_true, if_true, e3, Option.map_some]; rfl, ?_⟩
    have hk : Kept S x.1.1 ks (x.1.1, st.resetTickets [s, d, w, z, p, u]) := ⟨OnlyWeights.refl _ _, s3⟩
    exact ((q3.reset s3.wf l).only (hk.applyReset hlk ho e3).shape)
  · exact ⟨_, by simp only [hq, decide_false]; rfl, q3⟩

end Gospn
