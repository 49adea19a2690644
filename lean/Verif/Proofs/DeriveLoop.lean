import Verif.Proofs.Derive
set_option linter.unusedSectionVars false
namespace Gospn
open Spec

variable {ι : Type} [DecidableEq ι] [Fintype ι]

/-- What the table at `a` has accumulated for node `n`; a missing entry counts as 0. -/
noncomputable def cur (a : Nat) (st : Storer ι XR) (n : ι) : ℝ := ((tab0 a st n).map unlog).getD 0

/-- All entries (of index 0) of the table at `a` are logarithms. -/
def LogTab (a : Nat) (st : Storer ι XR) : Prop := ∀ n e, tab0 a st n = some e → IsLogProb e

theorem deriveStore_spec {a : Nat} {st : Storer ι XR} (hl : LogTab a st) (c : ι) {t : XR} (ht : IsLogProb t) :
    ∃ st', deriveStore (some a) st c t = some st' ∧ FrameAt a [c] st st' ∧ LogTab a st' ∧
      (∀ n, cur a st' n = cur a st n + if c = n then unlog t else 0) ∧ (∀ n, tab0 a st' n ≠ none ↔ (tab0 a st n ≠ none ∨ c = n)) := by
  have key : ∀ e st', IsLogProb e → unlog e = cur a st c + unlog t → st.tableStore (some a) c 0 e = some st' →
      FrameAt a [c] st st' ∧ LogTab a st' ∧
      (∀ n, cur a st' n = cur a st n + if c = n then unlog t else 0) ∧ (∀ n, tab0 a st' n ≠ none ↔ (tab0 a st n ≠ none ∨ c = n)) := by
    intro e st' he hv hs
    have h0 := tab0_store a st st' c e hs
    refine ⟨FrameAt.store hs, ?_, ?_, ?_⟩
    · intro n x hx
      rw [h0] at hx
      by_cases hn : n = c
      · subst hn; simp at hx; subst hx; exact he
      · simp [hn] at hx; exact hl n x hx
    · intro n
      by_cases hn : c = n
      · subst hn; simp [cur, h0, hv]
      · simp [cur, h0, hn, Ne.symm hn]
    · intro n
      by_cases hn : c = n
      · subst hn; simp [h0]
      · simp [h0, hn, Function.update_of_ne (Ne.symm hn)]
  unfold deriveStore
  have hd : (st.deref (some a)).entry c 0 = tab0 a st c := rfl
  rw [hd]
  cases hc : tab0 a st c with
  | none =>
    exact ⟨_, rfl, key t _ ht (by simp [cur, hc]) rfl⟩
  | some v =>
    have := logSumExpPair_spec (hl c v hc) ht
    exact ⟨_, rfl, key _ _ this.1 (by simp [cur, hc, this.2]) rfl⟩

/-- The inner loops: `g` stores contribution `t x` for child `c x`. -/
theorem deriveFold_spec {β : Type} {a : Nat} (st0 : Storer ι XR) (ns : List ι) (g : Storer ι XR → β → Option (Storer ι XR)) (c : β → ι) (t : β → XR) :
    ∀ (L : List β) (st : Storer ι XR), (∀ x ∈ L, ∀ st, FrameAt a ns st0 st → g st x = deriveStore (some a) st (c x) (t x)) →
      (∀ x ∈ L, IsLogProb (t x)) → (∀ x ∈ L, c x ∈ ns) → FrameAt a ns st0 st → LogTab a st →
      ∃ st', L.foldlM g st = some st' ∧ FrameAt a ns st0 st' ∧ LogTab a st' ∧
        (∀ n, cur a st' n = cur a st n + (L.map (fun x => if c x = n then unlog (t x) else 0)).sum) ∧
        (∀ n, tab0 a st' n ≠ none ↔ (tab0 a st n ≠ none ∨ ∃ x ∈ L, c x = n)) := by
  intro L
  induction L with
  | nil => intro st _ _ _ hf hl; exact ⟨st, rfl, hf, hl, by simp, by simp⟩
  | cons x L ih =>
    intro st hg ht hn hf hl
    obtain ⟨s1, h1, h2, h3, h4, h5⟩ := deriveStore_spec hl (c x) (ht x (by simp))
    have hf1 : FrameAt a ns st0 s1 := hf.trans (h2.mono (by simpa using hn x (by simp)))
    obtain ⟨s2, g1, g2, g3, g4, g5⟩ := ih s1 (fun y hy => hg y (by simp [hy])) (fun y hy => ht y (by simp [hy])) (fun y hy => hn y (by simp [hy])) hf1 h3
    refine ⟨s2, ?_, g2, g3, ?_, ?_⟩
    · rw [List.foldlM_cons, hg x (by simp) st hf, h1]; exact g1
    · intro n; rw [g4, h4]; simp only [List.map_cons, List.sum_cons]; ring
    · intro n; rw [g5, h5]; simp only [List.mem_cons, exists_eq_or_imp]; tauto

theorem siblingProd_spec (inf : Table ι XR) (p : ι → ℝ) : ∀ (cs : List ι) (k i : Nat) (pv : XR), IsLogProb pv →
    (∀ c ∈ cs, IsLogProb ((inf.entry c 0).getD (GoFloat.ofInt 0)) ∧ unlog ((inf.entry c 0).getD (GoFloat.ofInt 0)) = p c) →
    let r := (cs.zipIdx k).foldl (fun t cj => if cj.2 ≠ i + k then GoFloat.add t ((inf.entry cj.1 0).getD (GoFloat.ofInt 0)) else t) pv
    IsLogProb r ∧ unlog r = unlog pv * ((cs.eraseIdx i).map p).prod := by
  intro cs
  induction cs with
  | nil => intro k i pv h _; simp [h]
  | cons c cs ih =>
    intro k i pv h hc
    obtain ⟨hx2, hx3⟩ := hc c (by simp)
    simp only [List.zipIdx_cons, List.foldl_cons]
    cases i with
    | zero =>
      simp only [Nat.zero_add, ne_eq, not_true_eq_false, if_false, List.eraseIdx_cons_zero]
      -- no later position is skipped
      have key : ∀ (l : List ι) (j : Nat) (pv : XR), k < j → IsLogProb pv → (∀ c ∈ l, IsLogProb ((inf.entry c 0).getD (GoFloat.ofInt 0)) ∧ unlog ((inf.entry c 0).getD (GoFloat.ofInt 0)) = p c) →
          IsLogProb ((l.zipIdx j).foldl (fun t cj => if ¬ cj.2 = k then GoFloat.add t ((inf.entry cj.1 0).getD (GoFloat.ofInt 0)) else t) pv) ∧
          unlog ((l.zipIdx j).foldl (fun t cj => if ¬ cj.2 = k then GoFloat.add t ((inf.entry cj.1 0).getD (GoFloat.ofInt 0)) else t) pv)
            = unlog pv * (l.map p).prod := by
        intro l
        induction l with
        | nil => intro j pv _ h _; simp [h]
        | cons d l ih =>
          intro j pv hj h hd
          obtain ⟨hy2, hy3⟩ := hd d (by simp)
          have ha := add_spec h hy2
          simp only [List.zipIdx_cons, List.foldl_cons]
          rw [if_pos (by omega)]
          have := ih (j + 1) (GoFloat.add pv ((inf.entry d 0).getD (GoFloat.ofInt 0))) (by omega) ha.1 (fun c hc => hd c (by simp [hc]))
          refine ⟨this.1, this.2.trans ?_⟩
          rw [show unlog (GoFloat.add pv ((inf.entry d 0).getD (GoFloat.ofInt 0))) = unlog pv * unlog ((inf.entry d 0).getD (GoFloat.ofInt 0)) from ha.2, hy3, List.map_cons, List.prod_cons]; ring
      exact key cs (k + 1) pv (by omega) h (fun c hc' => hc c (by simp [hc']))
    | succ i =>
      have ha := add_spec h hx2
      rw [if_pos (by omega)]
      have := ih (k + 1) i (GoFloat.add pv ((inf.entry c 0).getD (GoFloat.ofInt 0))) ha.1 (fun c hc' => hc c (by simp [hc']))
      rw [show i + (k + 1) = i + 1 + k by omega] at this
      refine ⟨this.1, this.2.trans ?_⟩
      rw [show unlog (GoFloat.add pv ((inf.entry c 0).getD (GoFloat.ofInt 0))) = unlog pv * unlog ((inf.entry c 0).getD (GoFloat.ofInt 0)) from ha.2, hx3, List.eraseIdx_cons_succ, List.map_cons, List.prod_cons]; ring

theorem mem_zipIdx0 {α : Type} {l : List α} {x : α} {i : Nat} (h : (x, i) ∈ l.zipIdx) : l[i]? = some x := by
  have := List.mem_zipIdx_iff_getElem?.1 h
  simpa using this

theorem zip_eq_zipIdx (g : ι × ℝ → ℝ) : ∀ (cs : List ι) (r : List ℝ) (k : Nat) (f : ι × Nat → ℝ), r.length = cs.length →
    (∀ i c a, cs[i]? = some c → r[i]? = some a → f (c, i + k) = g (c, a)) → ((cs.zipIdx k).map f).sum = ((cs.zip r).map g).sum := by
  intro cs
  induction cs with
  | nil => intro r k f _ _; simp
  | cons c cs ih =>
    intro r k f hl h
    cases r with
    | nil => simp at hl
    | cons a r =>
      simp at hl
      simp only [List.zipIdx_cons, List.map_cons, List.sum_cons, List.zip_cons_cons]
      have h0 := h 0 c a rfl rfl
      rw [Nat.zero_add] at h0
      rw [h0, ih r (k + 1) f hl (fun i c a hc ha => by
        rw [show i + (k + 1) = i + 1 + k by omega]; exact h (i + 1) c a (by simpa using hc) (by simpa using ha))]

/-- What is read from the table are the logarithms of `p` for the nodes below `S` (a missing entry reads as 0). -/
def HoldsLogs (inf : Table ι XR) (N : Net ι XR) (S : ι) (p : ι → ℝ) : Prop :=
  ∀ n, Reach N.ch S n → IsLogProb ((inf.entry n 0).getD (GoFloat.ofInt 0)) ∧ unlog ((inf.entry n 0).getD (GoFloat.ofInt 0)) = p n

theorem deriveStep_spec {N : Net ι XR} {S : ι} {p : ι → ℝ} (hw : NonnegWeights N S) {a ai : Nat} (hai : ai ≠ a) (st0 : Storer ι XR) (ns : List ι)
    (hns : ∀ n, Reach N.ch S n → n ∈ ns)
    (hinf : HoldsLogs (st0.heap ai) N S p) {s : ι} (hs : Reach N.ch S s) (st : Storer ι XR) (hf : FrameAt a ns st0 st) (hl : LogTab a st)
    (hpv : tab0 a st s ≠ none) :
    ∃ st', N.deriveStep (some a) (some ai) st s = some st' ∧ FrameAt a ns st0 st' ∧ LogTab a st' ∧
      (∀ n, cur a st' n = cur a st n + edgeCoef N p s n * cur a st s) ∧ (∀ n, tab0 a st' n ≠ none ↔ (tab0 a st n ≠ none ∨ n ∈ N.ch s)) := by
  obtain ⟨pv, hpv⟩ := Option.ne_none_iff_exists'.1 hpv
  have hpl := hl s pv hpv
  have hcs : cur a st s = unlog pv := by simp [cur, hpv]
  have hd : (st.deref (some a)).entry s 0 = some pv := hpv
  unfold Net.deriveStep
  simp only [hd, Option.getD_some]
  cases hk : N.kind s with
  | leaf l =>
    refine ⟨st, rfl, hf, hl, fun n => ?_, fun n => ?_⟩
    · simp [edgeCoef, coefs, hk]
    · simp [Net.ch, hk]
  | sum ch w =>
    have hch : N.ch s = ch := by simp [Net.ch, hk]
    obtain ⟨_, r, rfl, hlen, hnn⟩ := hw s hs ch w hk
    simp only
    have hy0 : ∀ x ∈ ch.zipIdx, ∀ st, FrameAt a ns st0 st → (fun st (ci : ι × Nat) => ((r.map XR.fin)[ci.2]?).bind fun wi => deriveStore (some a) st ci.1 (GoFloat.add (GoFloat.log wi) pv)) st x = deriveStore (some a) st x.1 (XR.add (XR.log (.fin ((r[x.2]?).getD 0))) pv) := by
      rintro ⟨c, i⟩ hx st _
      have hc := mem_zipIdx0 hx
      have hi : i < r.length := by
        rw [hlen]; exact (List.getElem?_eq_some_iff.1 hc).1
      simp [List.getElem?_eq_getElem hi]
    have hy1 : ∀ x ∈ ch.zipIdx, IsLogProb (XR.add (XR.log (.fin ((r[x.2]?).getD 0))) pv) := by
      rintro ⟨c, i⟩ hx
      have hc := mem_zipIdx0 hx
      have hi : i < r.length := by
        rw [hlen]; exact (List.getElem?_eq_some_iff.1 hc).1
      simp only [List.getElem?_eq_getElem hi, Option.getD_some]
      exact (add_spec (log_nonneg_spec (hnn _ (List.getElem_mem hi))).1 hpl).1
    have hy2 : ∀ x ∈ ch.zipIdx, x.1 ∈ ns := by
      rintro ⟨c, i⟩ hx
      exact hns c (reach_step hs (by rw [hch]; exact List.fst_mem_of_mem_zipIdx hx))
    obtain ⟨st', h1, h2, h3, h4, h5⟩ := deriveFold_spec (a := a) st0 ns
      (fun st ci => ((r.map XR.fin)[ci.2]?).bind fun wi => deriveStore (some a) st ci.1 (GoFloat.add (GoFloat.log wi) pv))
      (fun ci => ci.1) (fun ci => XR.add (XR.log (.fin ((r[ci.2]?).getD 0))) pv) ch.zipIdx st hy0 hy1 hy2 hf hl
    · refine ⟨st', h1, h2, h3, fun n => ?_, fun n => ?_⟩
      · rw [h4, hcs]
        congr 1
        simp only [edgeCoef, coefs, hk]
        rw [← List.sum_map_mul_right]
        rw [show (r.map XR.fin).map realOf = r by simp [Function.comp_def, realOf]]
        apply zip_eq_zipIdx (fun q => (if q.1 = n then q.2 else 0) * unlog pv) ch r 0 _ hlen
        intro i c x hc hx
        simp only [Nat.add_zero, hx, Option.getD_some]
        have hx0 := hnn x (List.mem_of_getElem? hx)
        have := add_spec (log_nonneg_spec hx0).1 hpl
        rw [this.2, (log_nonneg_spec hx0).2]
        by_cases hcn : c = n <;> simp [hcn]
      · rw [h5, hch]
        constructor
        · rintro (h | ⟨x, hx, rfl⟩)
          · exact Or.inl h
          · exact Or.inr (List.fst_mem_of_mem_zipIdx hx)
        · rintro (h | h)
          · exact Or.inl h
          · obtain ⟨i, hi⟩ := List.mem_iff_getElem?.1 h
            exact Or.inr ⟨(n, i), List.mem_zipIdx_iff_getElem?.2 (by simpa using hi), rfl⟩
  | product ch =>
    have hch : N.ch s = ch := by simp [Net.ch, hk]
    have hsib : ∀ i, IsLogProb (siblingProd (st0.heap ai) pv ch i) ∧ unlog (siblingProd (st0.heap ai) pv ch i) = unlog pv * ((ch.eraseIdx i).map p).prod := by
      intro i
      have := siblingProd_spec (st0.heap ai) p ch 0 i pv hpl (fun c hc => hinf c (reach_step hs (by rw [hch]; exact hc)))
      simpa [siblingProd] using this
    obtain ⟨st', h1, h2, h3, h4, h5⟩ := deriveFold_spec (a := a) st0 ns
      (fun st ci => deriveStore (some a) st ci.1 (siblingProd (st.deref (some ai)) pv ch ci.2))
      (fun ci => ci.1) (fun ci => siblingProd (st0.heap ai) pv ch ci.2) ch.zipIdx st
      (fun x _ st' hf' => by simp only [Storer.deref, hf'.others ai hai]) (fun x _ => (hsib x.2).1)
      (fun x hx => hns x.1 (reach_step hs (by rw [hch]; exact List.fst_mem_of_mem_zipIdx hx))) hf hl
    refine ⟨st', h1, h2, h3, fun n => ?_, fun n => ?_⟩
    · rw [h4, hcs]
      congr 1
      simp only [edgeCoef, coefs, hk, List.map_map]
      rw [← List.sum_map_mul_right]
      congr 1
      apply List.map_congr_left
      intro ci _
      simp only [Function.comp, (hsib ci.2).2]
      by_cases hcn : ci.1 = n <;> simp [hcn, mul_comm]
    · rw [h5, hch]
      constructor
      · rintro (h | ⟨x, hx, rfl⟩)
        · exact Or.inl h
        · exact Or.inr (List.fst_mem_of_mem_zipIdx hx)
      · rintro (h | h)
        · exact Or.inl h
        · obtain ⟨i, hi⟩ := List.mem_iff_getElem?.1 h
          exact Or.inr ⟨(n, i), List.mem_zipIdx_iff_getElem?.2 (by simpa using hi), rfl⟩

/-- In `l` every node comes after all of its parents below `S`. -/
def ParentsFirst (N : Net ι XR) (S : ι) (l : List ι) : Prop :=
  ∀ before x after, l = before ++ x :: after → ∀ u, Reach N.ch S u → x ∈ N.ch u → u ∈ before

/-- The whole loop. -/
theorem deriveLoop_spec {N : Net ι XR} {S : ι} {p : ι → ℝ} (hac : Acyclic N.ch) (hw : NonnegWeights N S) {a ai : Nat} (hai : ai ≠ a) (st0 : Storer ι XR)
    (ns : List ι) (hns : ∀ n, Reach N.ch S n → n ∈ ns) (hinf : HoldsLogs (st0.heap ai) N S p) (order : List ι) (hnd : order.Nodup)
    (hre : ∀ x ∈ order, Reach N.ch S x) (hpf : ParentsFirst N S order) :
    ∀ (done todo : List ι) (st : Storer ι XR), order = done ++ todo →
      FrameAt a ns st0 st → LogTab a st →
      (∀ n, cur a st n = (if n = S then 1 else 0) + (done.map (fun m => edgeCoef N p m n * cur a st m)).sum) →
      (∀ n, tab0 a st n ≠ none ↔ (n = S ∨ ∃ m ∈ done, n ∈ N.ch m)) → (∀ x ∈ todo, x = S ∨ ∃ u, Reach N.ch S u ∧ x ∈ N.ch u) →
      ∃ st', todo.foldlM (N.deriveStep (some a) (some ai)) st = some st' ∧ FrameAt a ns st0 st' ∧ LogTab a st' ∧
        (∀ n, cur a st' n = (if n = S then 1 else 0) + (order.map (fun m => edgeCoef N p m n * cur a st' m)).sum) ∧
        (∀ n, tab0 a st' n ≠ none ↔ (n = S ∨ ∃ m ∈ order, n ∈ N.ch m)) := by
  intro done todo
  induction todo generalizing done with
  | nil =>
    intro st ho hf hl hc hpres _
    simp at ho; subst ho
    exact ⟨st, rfl, hf, hl, hc, hpres⟩
  | cons s todo ih =>
    intro st ho hf hl hc hpres htodo
    have hsr : Reach N.ch S s := hre s (by rw [ho]; simp)
    have hsp : tab0 a st s ≠ none := by
      rw [hpres]
      rcases htodo s (by simp) with h | ⟨u, hu, hsu⟩
      · exact Or.inl h
      · exact Or.inr ⟨u, hpf done s todo ho u hu hsu, hsu⟩
    obtain ⟨s1, h1, h2, h3, h4, h5⟩ := deriveStep_spec hw hai st0 ns hns hinf hsr st hf hl hsp
    -- accumulated values of finished nodes no longer change
    have hself : s ∉ N.ch s := fun h => not_reach_parent hac h Relation.ReflTransGen.refl
    have hst : ∀ m ∈ done ++ [s], cur a s1 m = cur a st m := by
      intro m hm
      rw [h4, edgeCoef_zero, zero_mul, add_zero]
      intro hmem
      rcases List.mem_append.1 hm with hm | hm
      · obtain ⟨b, c, hbc⟩ := List.append_of_mem hm
        have := hpf b m (c ++ s :: todo) (by rw [ho, hbc]; simp) s hsr hmem
        rw [ho, hbc] at hnd
        have hnd' := List.nodup_append.1 hnd
        exact hnd'.2.2 s (by simp [this]) s (by simp) rfl
      · simp at hm; subst hm; exact hself hmem
    obtain ⟨st', g1, g2, g3, g4, g5⟩ := ih (done ++ [s]) s1 (by simp [ho]) h2 h3 (by
      intro n
      rw [h4, hc]
      simp only [List.map_append, List.map_cons, List.map_nil, List.sum_append, List.sum_cons, List.sum_nil, add_zero]
      rw [hst s (by simp), add_assoc]
      congr 2
      congr 1
      apply List.map_congr_left
      intro m hm
      rw [hst m (by simp [hm])]) (by
      intro n; rw [h5, hpres]
      simp only [List.mem_append, List.mem_singleton]
      constructor
      · rintro ((h | ⟨m, hm, h⟩) | h)
        · exact Or.inl h
        · exact Or.inr ⟨m, Or.inl hm, h⟩
        · exact Or.inr ⟨s, Or.inr rfl, h⟩
      · rintro (h | ⟨m, hm | rfl, h⟩)
        · exact Or.inl (Or.inl h)
        · exact Or.inl (Or.inr ⟨m, hm, h⟩)
        · exact Or.inr h) (fun x hx => htodo x (by simp [hx]))
    exact ⟨st', by rw [List.foldlM_cons, h1]; exact g1, g2, g3, g4, g5⟩

/-! ### The order of the search -/

theorem innerCh_sub {F : Type} {N : Net ι F} {u c : ι} (h : c ∈ N.innerCh u) : c ∈ N.ch u ∧ N.type c ≠ .leaf := by
  simp only [Net.innerCh, List.mem_filter, decide_eq_true_eq] at h; exact h

theorem innerReach_sub {F : Type} {N : Net ι F} {S u : ι} (h : Reach N.innerCh S u) : Reach N.ch S u := by
  induction h with
  | refl => exact Relation.ReflTransGen.refl
  | tail _ hc ih => exact Relation.ReflTransGen.tail ih (innerCh_sub hc).1

theorem not_leaf_of_ch {F : Type} {N : Net ι F} {u c : ι} (h : c ∈ N.ch u) : N.type u ≠ .leaf := by
  intro ht
  unfold Net.type at ht; unfold Net.ch at h
  cases hk : N.kind u <;> simp [hk] at ht h

/-- Inner nodes are reached through inner nodes. -/
theorem innerReach_of {F : Type} {N : Net ι F} {S u : ι} (h : Reach N.ch S u) (hu : u = S ∨ N.type u ≠ .leaf) : Reach N.innerCh S u := by
  induction h with
  | refl => exact Relation.ReflTransGen.refl
  | @tail b c hb hc ih =>
    by_cases hcS : c = S
    · rw [hcS]; exact Relation.ReflTransGen.refl
    · have hl := hu.resolve_left hcS
      exact Relation.ReflTransGen.tail (ih (Or.inr (not_leaf_of_ch hc))) (by simp [Net.innerCh, hc, hl])


theorem parentsFirst_queue {N : Net ι XR} {S : ι} (hac : Acyclic N.ch) (h : Levelled N S) : ParentsFirst N S (workOrder N.innerCh false S) := by
  obtain ⟨level, hl⟩ := h
  have hp := workOrder_levels_reach N.innerCh level S (fun u hu c hc => hl u (innerReach_sub hu) c (innerCh_sub hc).1 (innerCh_sub hc).2)
  have hls := workOrder_lists N.innerCh false S
  intro b x a ho u hu hx
  have hxin : x ∈ workOrder N.innerCh false S := by rw [ho]; simp
  have hxr := (hls.2 x).1 hxin
  have hxl : N.type x ≠ .leaf := by
    rcases Relation.ReflTransGen.cases_tail hxr with h | ⟨y, _, hy⟩
    · subst h; exact absurd hu (not_reach_parent hac hx)
    · exact (innerCh_sub hy).2
  have hlev := hl u hu x hx hxl
  have huin : u ∈ workOrder N.innerCh false S := (hls.2 u).2 (innerReach_of hu (Or.inr (not_leaf_of_ch hx)))
  rw [ho] at huin hp
  rcases List.mem_append.1 huin with h | h
  · exact h
  · rw [List.map_append, List.pairwise_append, List.map_cons, List.pairwise_cons] at hp
    rcases List.mem_cons.1 h with rfl | h
    · omega
    · have := hp.2.1.1 (level u) (List.mem_map.2 ⟨u, h, rfl⟩); omega

theorem parentsFirst_tree {N : Net ι XR} {S : ι} (hac : Acyclic N.ch) (h : InnerTree N S) (isStack : Bool) :
    ParentsFirst N S (workOrder N.innerCh isStack S) := by
  have hls := workOrder_lists N.innerCh isStack S
  intro b x a ho u hu hx
  rcases workOrder_parent N.innerCh isStack S b x a ho with rfl | ⟨u', hu', hx'⟩
  · exact absurd hu (not_reach_parent hac hx)
  · have hur' : Reach N.ch S u' := innerReach_sub ((hls.2 u').1 (by rw [ho]; simp [hu']))
    have := h u hu u' hur' x hx (innerCh_sub hx').1 (innerCh_sub hx').2
    rw [this]; exact hu'

/-- `DeriveSPN`'s loop on a table that is empty, in an order with parents first. -/
theorem derive_work {N : Net ι XR} {S : ι} {p : ι → ℝ} (hac : Acyclic N.ch) (hw : NonnegWeights N S) {a ai : Nat} (hai : ai ≠ a) (st : Storer ι XR)
    (hempty : ∀ n, tab0 a st n = none) (hinf : HoldsLogs (st.heap ai) N S p) (isStack : Bool) (hpf : ParentsFirst N S (workOrder N.innerCh isStack S)) :
    ∃ st1 st2, st.tableStore (some a) S 0 (GoFloat.ofInt 0) = some st1 ∧
      work (fun st s => (N.deriveStep (some a) (some ai) st s).map fun st' => (st', some (N.innerCh s))) isStack S st1 = some st2 ∧
      (∃ l, FrameAt a l st st2 ∧ ∀ n ∈ l, Reach N.ch S n) ∧ LogTab a st2 ∧
      (∀ c, cur a st2 c = (if c = S then 1 else 0) + ∑ m, edgeCoef N p m c * cur a st2 m) ∧
      (∀ n, tab0 a st2 n ≠ none ↔ Reach N.ch S n) := by
  classical
  have hls := workOrder_lists N.innerCh isStack S
  obtain ⟨st1, hs1⟩ : ∃ st1, st.tableStore (some a) S 0 (GoFloat.ofInt 0) = some st1 := ⟨_, rfl⟩
  have h0 := tab0_store a st st1 S _ hs1
  obtain ⟨ns, hns, hns'⟩ : ∃ ns : List ι, (∀ n, Reach N.ch S n → n ∈ ns) ∧ ∀ n ∈ ns, Reach N.ch S n :=
    ⟨(Finset.univ.filter (Reach N.ch S)).toList, by simp, by simp⟩
  have hf1 : FrameAt a ns st st1 := (FrameAt.store hs1).mono (by simpa using hns S Relation.ReflTransGen.refl)
  have hcur : ∀ n, cur a st1 n = if n = S then 1 else 0 := by
    intro n
    by_cases hn : n = S
    · subst hn; simp [cur, h0]
    · simp [cur, h0, hn, hempty]
  obtain ⟨st2, g1, g2, g3, g4, g5⟩ := deriveLoop_spec hac hw hai st ns hns hinf (workOrder N.innerCh isStack S) hls.1
    (fun x hx => innerReach_sub ((hls.2 x).1 hx)) hpf [] (workOrder N.innerCh isStack S) st1 (by simp) hf1 (by
      intro n e he
      rw [h0] at he
      by_cases hn : n = S
      · subst hn; simp at he; subst he; simp [IsLogProb]
      · simp [hn, hempty] at he) (by intro n; simp [hcur]) (by
      intro n
      by_cases hn : n = S
      · subst hn; simp [h0]
      · simp [h0, hn, hempty]) (by
      intro x hx
      rcases Relation.ReflTransGen.cases_tail ((hls.2 x).1 hx) with h | ⟨y, hy1, hy⟩
      · exact Or.inl h
      · exact Or.inr ⟨y, innerReach_sub hy1, (innerCh_sub hy).1⟩)
  have hpres : ∀ n, tab0 a st2 n ≠ none ↔ Reach N.ch S n := by
    intro n
    rw [g5]
    constructor
    · rintro (rfl | ⟨m, hm, h⟩)
      · exact Relation.ReflTransGen.refl
      · exact reach_step (innerReach_sub ((hls.2 m).1 hm)) h
    · intro h
      rcases Relation.ReflTransGen.cases_tail h with h | ⟨m, hm, h⟩
      · exact Or.inl h
      · exact Or.inr ⟨m, (hls.2 m).2 (innerReach_of hm (Or.inr (not_leaf_of_ch h))), h⟩
  refine ⟨st1, st2, hs1, ?_, ⟨ns, g2, hns'⟩, g3, ?_, hpres⟩
  · rw [work_static _ (N.deriveStep (some a) (some ai)) N.innerCh (fun _ _ => rfl)]; exact g1
  · intro c
    conv_lhs => rw [g4 c]
    congr 1
    rw [← List.sum_toFinset _ hls.1]
    apply Finset.sum_subset (Finset.subset_univ _)
    intro m _ hm
    rw [List.mem_toFinset, hls.2] at hm
    by_cases hc : c ∈ N.ch m
    · have : ¬ Reach N.ch S m := fun h => hm (innerReach_of h (Or.inr (not_leaf_of_ch hc)))
      have h0 : tab0 a st2 m = none := by by_contra h; exact this ((hpres m).1 h)
      simp [cur, h0]
    · rw [edgeCoef_zero hc, zero_mul]

end Gospn

namespace Gospn
open Spec
variable {ι : Type} [DecidableEq ι] [Fintype ι]

/-- What one visit does to the accumulated values. -/
noncomputable def accStep (N : Net ι XR) (p : ι → ℝ) (g : ι → ℝ) (s : ι) : ι → ℝ := fun n => g n + edgeCoef N p s n * g s

/-- `DeriveSPN`'s loop in whatever order the search has: the values accumulated in that order. -/
theorem derive_any {N : Net ι XR} {S : ι} {p : ι → ℝ} (hw : NonnegWeights N S) {a ai : Nat} (hai : ai ≠ a) (st : Storer ι XR)
    (hempty : ∀ n, tab0 a st n = none) (hinf : HoldsLogs (st.heap ai) N S p) (isStack : Bool) :
    ∃ st1 st2, st.tableStore (some a) S 0 (GoFloat.ofInt 0) = some st1 ∧
      work (fun st s => (N.deriveStep (some a) (some ai) st s).map fun st' => (st', some (N.innerCh s))) isStack S st1 = some st2 ∧
      (∃ l, FrameAt a l st st2 ∧ ∀ n ∈ l, Reach N.ch S n) ∧ LogTab a st2 ∧
      cur a st2 = (workOrder N.innerCh isStack S).foldl (accStep N p) (fun n => if n = S then 1 else 0) ∧
      (∀ n, tab0 a st2 n ≠ none ↔ Reach N.ch S n) := by
  classical
  have hls := workOrder_lists N.innerCh isStack S
  obtain ⟨st1, hs1⟩ : ∃ st1, st.tableStore (some a) S 0 (GoFloat.ofInt 0) = some st1 := ⟨_, rfl⟩
  have h0 := tab0_store a st st1 S _ hs1
  obtain ⟨ns, hns, hns'⟩ : ∃ ns : List ι, (∀ n, Reach N.ch S n → n ∈ ns) ∧ ∀ n ∈ ns, Reach N.ch S n :=
    ⟨(Finset.univ.filter (Reach N.ch S)).toList, by simp, by simp⟩
  have hf1 : FrameAt a ns st st1 := (FrameAt.store hs1).mono (by simpa using hns S Relation.ReflTransGen.refl)
  have hcur : cur a st1 = fun n => if n = S then 1 else 0 := by
    funext n
    by_cases hn : n = S
    · subst hn; simp [cur, h0]
    · simp [cur, h0, hn, hempty]
  have key : ∀ (todo done : List ι) (st' : Storer ι XR), workOrder N.innerCh isStack S = done ++ todo → FrameAt a ns st st' → LogTab a st' →
      (∀ n, tab0 a st' n ≠ none ↔ (n = S ∨ ∃ m ∈ done, n ∈ N.ch m)) →
      ∃ st2, todo.foldlM (N.deriveStep (some a) (some ai)) st' = some st2 ∧ FrameAt a ns st st2 ∧ LogTab a st2 ∧
        cur a st2 = todo.foldl (accStep N p) (cur a st') ∧
        (∀ n, tab0 a st2 n ≠ none ↔ (n = S ∨ ∃ m ∈ done ++ todo, n ∈ N.ch m)) := by
    intro todo
    induction todo with
    | nil => intro done st' _ hf hl hp; exact ⟨st', rfl, hf, hl, rfl, by simpa using hp⟩
    | cons s todo ih =>
      intro done st' ho hf hl hp
      have hsp : tab0 a st' s ≠ none := by
        rw [hp]
        exact (workOrder_parent N.innerCh isStack S done s todo ho).imp id (fun ⟨u, hu, h⟩ => ⟨u, hu, (innerCh_sub h).1⟩)
      obtain ⟨s1, h1, h2, h3, h4, h5⟩ := deriveStep_spec hw hai st ns hns hinf (innerReach_sub ((hls.2 s).1 (by rw [ho]; simp))) st' hf hl hsp
      obtain ⟨st2, g1, g2, g3, g4, g5⟩ := ih (done ++ [s]) s1 (by simp [ho]) h2 h3 (by
        intro n; rw [h5, hp]
        simp only [List.mem_append, List.mem_singleton]
        constructor
        · rintro ((h | ⟨m, hm, h⟩) | h)
          · exact Or.inl h
          · exact Or.inr ⟨m, Or.inl hm, h⟩
          · exact Or.inr ⟨s, Or.inr rfl, h⟩
        · rintro (h | ⟨m, hm | rfl, h⟩)
          · exact Or.inl (Or.inl h)
          · exact Or.inl (Or.inr ⟨m, hm, h⟩)
          · exact Or.inr h)
      refine ⟨st2, by rw [List.foldlM_cons, h1]; exact g1, g2, g3, ?_, by simpa using g5⟩
      rw [g4, List.foldl_cons]
      congr 1
      funext n; exact h4 n
  obtain ⟨st2, g1, g2, g3, g4, g5⟩ := key (workOrder N.innerCh isStack S) [] st1 (by simp) hf1 (by
      intro n e he
      rw [h0] at he
      by_cases hn : n = S
      · subst hn; simp at he; subst he; simp [IsLogProb]
      · simp [hn, hempty] at he) (by
      intro n
      by_cases hn : n = S
      · subst hn; simp [h0]
      · simp [h0, hn, hempty])
  refine ⟨st1, st2, hs1, ?_, ⟨ns, g2, hns'⟩, g3, by rw [g4, hcur], fun n => ?_⟩
  · rw [work_static _ (N.deriveStep (some a) (some ai)) N.innerCh (fun _ _ => rfl)]; exact g1
  · rw [g5]
    simp only [List.nil_append]
    constructor
    · rintro (rfl | ⟨m, hm, h⟩)
      · exact Relation.ReflTransGen.refl
      · exact reach_step (innerReach_sub ((hls.2 m).1 hm)) h
    · intro h
      rcases Relation.ReflTransGen.cases_tail h with h | ⟨m, hm, h⟩
      · exact Or.inl h
      · exact Or.inr ⟨m, (hls.2 m).2 (innerReach_of hm (Or.inr (not_leaf_of_ch h))), h⟩

end Gospn
