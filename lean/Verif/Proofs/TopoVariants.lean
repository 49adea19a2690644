import Verif.Proofs.TopoIter
import Mathlib.Algebra.Order.BigOperators.Group.Finset
/- Helper lemmas: the canonical order of TopSortTarjan, TopSortTarjanFunc and TopSortDFS. -/
set_option linter.unusedSectionVars false
namespace Gospn
open Spec
variable {ι : Type} [DecidableEq ι]

theorem tarjanStep_setC (ch : ι → List ι) (st : TarjanSt ι) (C : Coll ι) :
    ∃ C', tarjanStep ch { st with C := C } = { tarjanStep ch st with C := C' } := by
  unfold tarjanStep
  cases hS : st.S with
  | nil => exact ⟨C, by simp [hS]⟩
  | cons u rest => by_cases hu : u ∈ st.P <;> simp [hu]

theorem tarjanEmit_setC (st : TarjanSt ι) (C : Coll ι) : tarjanEmit { st with C := C } = tarjanEmit st := rfl

theorem tarjanOut_setC (ch : ι → List ι) : ∀ (fuel : Nat) (st : TarjanSt ι) (C : Coll ι),
    tarjanOut ch fuel { st with C := C } = tarjanOut ch fuel st := by
  intro fuel
  induction fuel with
  | zero => intro st C; rfl
  | succ fuel ih =>
    intro st C
    obtain ⟨C', h⟩ := tarjanStep_setC ch st C
    rw [tarjanOut, tarjanOut, h, ih, tarjanEmit_setC]

variable [Fintype ι]

/-- The list of nodes in the order in which `TopSortTarjan` gives them to its collection. -/
def tarjanOrder (ch : ι → List ι) (G : ι) : List ι := (topSortTarjan ch G none).items

theorem tarjanOrder_eq_out (ch : ι → List ι) (G : ι) (C : Coll ι) :
    tarjanOrder ch G = tarjanOut ch (2 * Fintype.card ι) (tarjanInit G C) := by
  rw [tarjanOrder, topSortTarjan, tarjanLoop_coll]
  have h1 : (tarjanInit G (Coll.orQueue (none : Option (Coll ι)))).C = ⟨false, []⟩ := rfl
  rw [h1, Coll.giveAll_queue]
  show tarjanOut ch (2 * Fintype.card ι) (tarjanInit G (Coll.orQueue none)) = _
  have : tarjanInit G (Coll.orQueue none) = { tarjanInit G C with C := Coll.orQueue none } := rfl
  rw [this, tarjanOut_setC]

theorem topSortTarjan_eq (ch : ι → List ι) (G : ι) (C : Option (Coll ι)) :
    topSortTarjan ch G C = (Coll.orQueue C).giveAll (tarjanOrder ch G) := by
  rw [topSortTarjan, tarjanLoop_coll, tarjanOrder_eq_out ch G (Coll.orQueue C)]
  rfl

theorem tarjanOrder_listsReachable (ch : ι → List ι) (G : ι) : ListsReachable ch G (tarjanOrder ch G) := by
  obtain ⟨out, h, _, hS⟩ := tarjanLoop_induct (ch := ch) (G := G) (C0 := ⟨false, []⟩) (fun _ _ => True) (by simp)
    (2 * Fintype.card ι) (tarjanInit G ⟨false, []⟩) [] (tarjanInit_inv ch G _) trivial
    (by rw [tarjanMeasure_init])
  have hc := h.coll
  rw [Coll.giveAll_queue] at hc
  have : tarjanOrder ch G = out := by
    show (tarjanLoop ch (2 * Fintype.card ι) (tarjanInit G ⟨false, []⟩)).C.items = out
    rw [hc]; rfl
  rw [this]; exact h.final hS

theorem tarjanOrder_childrenFirst {ch : ι → List ι} {G : ι} (hac : Acyclic ch) (hso : SiblingOrdered ch G) :
    ChildrenFirst ch (tarjanOrder ch G) := by
  obtain ⟨out, h, ho, hS⟩ := tarjanLoop_induct (ch := ch) (G := G) (C0 := ⟨false, []⟩) (fun st out => TarjanOrd ch st out)
    (fun st out hi hp => tarjanStep_ord hac hso hi hp)
    (2 * Fintype.card ι) (tarjanInit G ⟨false, []⟩) [] (tarjanInit_inv ch G _) (tarjanInit_ord ch G _)
    (by rw [tarjanMeasure_init])
  have hc := h.coll
  rw [Coll.giveAll_queue] at hc
  have : tarjanOrder ch G = out := by
    show (tarjanLoop ch (2 * Fintype.card ι) (tarjanInit G ⟨false, []⟩)).C.items = out
    rw [hc]; rfl
  rw [this]; exact ho.order

/-! ### TopSortTarjanFunc -/

theorem tarjanFuncLoop_eq {σ : Type} (ch : ι → List ι) (f : σ → ι → σ × Bool) : ∀ (fuel : Nat) (st : TarjanSt ι) (x : σ),
    tarjanFuncLoop ch f fuel st x =
      (st.C.giveAll (callUntilFalse f x (tarjanOut ch fuel st)).1, (callUntilFalse f x (tarjanOut ch fuel st)).2) := by
  intro fuel
  induction fuel with
  | zero => intro st x; rfl
  | succ fuel ih =>
    intro st x
    rw [tarjanFuncLoop]
    cases hS : st.S with
    | nil => simp [tarjanOut, hS, callUntilFalse]
    | cons u rest =>
      have hne : st.S ≠ [] := by simp [hS]
      by_cases hu : u ∈ st.P
      · have he : tarjanEmit st = [u] := by simp [tarjanEmit, hS, hu]
        have hout : tarjanOut ch (fuel + 1) st = u :: tarjanOut ch fuel (tarjanStep ch st) := by
          rw [tarjanOut, if_neg hne, he]; rfl
        simp only [hu, if_true]
        rw [hout, callUntilFalse]
        by_cases hf : (f x u).2 = true
        · simp only [hf, if_true]
          rw [ih, tarjanStep_coll, he]
          simp [Coll.giveAll]
        · simp only [hf, Bool.false_eq_true, if_false]
          rw [tarjanStep_coll, he]
      · have he : tarjanEmit st = [] := by simp [tarjanEmit, hS, hu]
        have hout : tarjanOut ch (fuel + 1) st = tarjanOut ch fuel (tarjanStep ch st) := by
          rw [tarjanOut, if_neg hne, he]; rfl
        simp only [hu, if_false]
        rw [hout, ih, tarjanStep_coll, he]
        simp

theorem topSortTarjanFunc_eq {σ : Type} (ch : ι → List ι) (G : ι) (C : Option (Coll ι)) (f : σ → ι → σ × Bool) (x : σ) :
    topSortTarjanFunc ch G C f x =
      ((Coll.orQueue C).giveAll (callUntilFalse f x (tarjanOrder ch G)).1, (callUntilFalse f x (tarjanOrder ch G)).2) := by
  rw [topSortTarjanFunc, tarjanFuncLoop_eq, tarjanOrder_eq_out ch G (Coll.orQueue C)]
  rfl

theorem callUntilFalse_true {α σ : Type} (f : σ → α → σ × Bool) (h : ∀ x u, (f x u).2 = true) (l : List α) (x : σ) :
    callUntilFalse f x l = (l, l.foldl (fun s u => (f s u).1) x) := by
  induction l generalizing x with
  | nil => rfl
  | cons u l ih => simp [callUntilFalse, h, ih]

/-! ### TopSortDFS -/

/-- Loop invariant of `TopSortDFS` on any graph. -/
structure DfsInv (ch : ι → List ι) (G : ι) (C0 : Coll ι) (st : DfsSt ι) (out : List ι) : Prop where
  coll : st.C = C0.giveAll out
  vis : ∀ x, x ∈ st.V ↔ x ∈ st.S ∨ x ∈ out
  closed : ∀ x ∈ out, ∀ c ∈ ch x, c ∈ st.V
  reach : ∀ x ∈ st.V, Reach ch G x
  root : G ∈ st.V

def dfsM (ch : ι → List ι) (st : DfsSt ι) (s : ι) : List ι := (ch s).filter (fun c => c ∉ st.V)

theorem foldl_cons_eq {α : Type} (m S : List α) : m.foldl (fun S c => c :: S) S = m.reverse ++ S := by
  induction m generalizing S with
  | nil => rfl
  | cons a m ih => simp [ih]

theorem foldl_insert_eq (m : List ι) (V : Finset ι) : m.foldl (fun V c => insert c V) V = V ∪ m.toFinset := by
  induction m generalizing V with
  | nil => simp
  | cons a m ih => rw [List.foldl_cons, ih]; ext x; simp

theorem dfsStep_give {ch : ι → List ι} {st : DfsSt ι} {s : ι} {rest : List ι} (hS : st.S = s :: rest)
    (hm : dfsM ch st s = []) : dfsStep ch st = { st with S := rest, C := st.C.give s } := by
  unfold dfsM at hm
  simp only [dfsStep, hS]
  by_cases h0 : (ch s).length = 0
  · simp [h0]
  · simp only [h0, if_false]
    rw [hm]; rfl

theorem dfsStep_expand {ch : ι → List ι} {st : DfsSt ι} {s : ι} {rest : List ι} (hS : st.S = s :: rest)
    (hm : dfsM ch st s ≠ []) :
    dfsStep ch st = { S := (dfsM ch st s).reverse ++ s :: rest, V := st.V ∪ (dfsM ch st s).toFinset, C := st.C } := by
  have h0 : (ch s).length ≠ 0 := by
    intro h; apply hm; unfold dfsM; rw [List.length_eq_zero_iff.1 h]; rfl
  have h1 : ((ch s).filter (fun c => c ∉ st.V)).length ≠ 0 := by
    intro h; exact hm (List.length_eq_zero_iff.1 h)
  simp only [dfsStep, hS, h0, h1, if_false, foldl_cons_eq, foldl_insert_eq]
  rfl

/-- Decreasing measure. -/
def dfsMeasure (ch : ι → List ι) (st : DfsSt ι) : Nat :=
  st.S.length + ∑ u ∈ Finset.univ.filter (fun u => ∃ c ∈ ch u, c ∉ st.V), (1 + (ch u).length)

theorem dfsMeasure_step {ch : ι → List ι} {st : DfsSt ι} (hne : st.S ≠ []) :
    dfsMeasure ch (dfsStep ch st) < dfsMeasure ch st := by
  cases hS : st.S with
  | nil => exact absurd hS hne
  | cons s rest =>
    by_cases hm : dfsM ch st s = []
    · rw [dfsStep_give hS hm]; simp [dfsMeasure, hS]
    · rw [dfsStep_expand hS hm]
      simp only [dfsMeasure, hS, List.length_append, List.length_reverse, List.length_cons]
      have hlen : (dfsM ch st s).length ≤ (ch s).length := List.length_filter_le _ _
      have hs : s ∈ Finset.univ.filter (fun u => ∃ c ∈ ch u, c ∉ st.V) := by
        obtain ⟨c, hc⟩ := List.exists_mem_of_ne_nil _ hm
        simp [dfsM] at hc
        simp; exact ⟨c, hc.1, hc.2⟩
      have hsub : Finset.univ.filter (fun u => ∃ c ∈ ch u, c ∉ st.V ∪ (dfsM ch st s).toFinset) ⊆
          (Finset.univ.filter (fun u => ∃ c ∈ ch u, c ∉ st.V)).erase s := by
        intro u hu
        simp only [Finset.mem_filter, Finset.mem_univ, true_and, Finset.mem_union, not_or, List.mem_toFinset] at hu
        obtain ⟨c, hc, hcV, hcm⟩ := hu
        rw [Finset.mem_erase]
        refine ⟨?_, by simp; exact ⟨c, hc, hcV⟩⟩
        rintro rfl
        exact hcm (by simp [dfsM, hc, hcV])
      have hle := Finset.sum_le_sum_of_subset (f := fun u => 1 + (ch u).length) hsub
      have hsplit := Finset.add_sum_erase _ (fun u => 1 + (ch u).length) hs
      omega

theorem dfsStep_inv {ch : ι → List ι} {G : ι} {C0 : Coll ι} {st : DfsSt ι} {out : List ι}
    (h : DfsInv ch G C0 st out) : ∃ out', DfsInv ch G C0 (dfsStep ch st) out' := by
  cases hS : st.S with
  | nil => refine ⟨out, ?_⟩; simpa [dfsStep, hS] using h
  | cons s rest =>
    have hsV : s ∈ st.V := (h.vis s).2 (by simp [hS])
    by_cases hm : dfsM ch st s = []
    · rw [dfsStep_give hS hm]
      refine ⟨out ++ [s], ⟨by simp [h.coll, Coll.giveAll_concat], ?_, ?_, h.reach, h.root⟩⟩
      · intro x
        have := h.vis x
        rw [hS] at this
        simp only [List.mem_append, List.mem_cons, List.not_mem_nil, or_false] at this ⊢
        rw [this]; tauto
      · intro x hx c hc
        rcases List.mem_append.1 hx with hx | hx
        · exact h.closed x hx c hc
        · simp at hx; subst hx
          by_contra hcV
          have : c ∈ dfsM ch st x := by simp only [dfsM, List.mem_filter, hc, true_and, decide_eq_true_eq]; exact hcV
          rw [hm] at this; simp at this
    · rw [dfsStep_expand hS hm]
      refine ⟨out, ⟨h.coll, ?_, ?_, ?_, by simp [h.root]⟩⟩
      · intro x
        have := h.vis x
        rw [hS] at this
        simp only [List.mem_append, List.mem_cons, Finset.mem_union, List.mem_toFinset, List.mem_reverse] at this ⊢
        rw [this]; tauto
      · intro x hx c hc; simp [h.closed x hx c hc]
      · intro x hx
        rcases Finset.mem_union.1 hx with hx | hx
        · exact h.reach x hx
        · simp [dfsM] at hx
          exact Relation.ReflTransGen.tail (h.reach s hsV) hx.1

theorem dfsLoop_inv {ch : ι → List ι} {G : ι} {C0 : Coll ι} : ∀ (fuel : Nat) (st : DfsSt ι) (out : List ι),
    DfsInv ch G C0 st out → dfsMeasure ch st ≤ fuel →
      ∃ out', DfsInv ch G C0 (dfsLoop ch fuel st) out' ∧ (dfsLoop ch fuel st).S = [] := by
  intro fuel
  induction fuel with
  | zero =>
    intro st out h hm
    have : st.S = [] := by
      have : st.S.length = 0 := by unfold dfsMeasure at hm; omega
      exact List.length_eq_zero_iff.1 this
    exact ⟨out, h, this⟩
  | succ fuel ih =>
    intro st out h hm
    by_cases hS : st.S = []
    · rw [dfsLoop, if_pos hS]; exact ⟨out, h, hS⟩
    · rw [dfsLoop, if_neg hS]
      have := dfsMeasure_step (ch := ch) hS
      obtain ⟨out', h'⟩ := dfsStep_inv h
      exact ih _ _ h' (by omega)

theorem dfsMeasure_init (ch : ι → List ι) (G : ι) (C : Coll ι) :
    dfsMeasure ch { S := [G], V := {G}, C := C } ≤ 1 + ∑ u : ι, (1 + (ch u).length) := by
  simp only [dfsMeasure, List.length_cons, List.length_nil, Nat.zero_add, Nat.add_le_add_iff_left]
  exact Finset.sum_le_sum_of_subset (Finset.subset_univ _)

theorem topSortDFS_lists (ch : ι → List ι) (G : ι) (C : Option (Coll ι)) :
    ∃ out, topSortDFS ch G C = (Coll.orQueue C).giveAll out ∧ ∀ x, x ∈ out ↔ Reach ch G x := by
  have h0 : DfsInv ch G (Coll.orQueue C) { S := [G], V := {G}, C := Coll.orQueue C } [] := by
    refine ⟨rfl, by simp, by simp, ?_, by simp⟩
    intro x hx; simp at hx; subst hx; exact Relation.ReflTransGen.refl
  obtain ⟨out, h, hS⟩ := dfsLoop_inv _ _ _ h0 (dfsMeasure_init ch G _)
  refine ⟨out, h.coll, ?_⟩
  have hv : ∀ x, x ∈ (dfsLoop ch (1 + ∑ u : ι, (1 + (ch u).length)) { S := [G], V := {G}, C := Coll.orQueue C }).V ↔ x ∈ out := by
    intro x; rw [h.vis x, hS]; simp
  refine fun x => ⟨fun hx => h.reach x ((hv x).2 hx), fun hx => ?_⟩
  induction hx with
  | refl => exact (hv G).1 h.root
  | tail _ hc ih => exact (hv _).1 (h.closed _ ih _ hc)

theorem pushUnvisited_nodup (cs : List ι) : ∀ (S : List ι) (V : Finset ι), cs.Nodup →
    pushUnvisited cs S V = ((cs.filter (fun c => c ∉ V)).reverse ++ S, V ∪ (cs.filter (fun c => c ∉ V)).toFinset) := by
  induction cs with
  | nil => intro S V _; simp [pushUnvisited]
  | cons c cs ih =>
    intro S V hnd
    rw [List.nodup_cons] at hnd
    rw [pushUnvisited, List.foldl_cons]
    by_cases hc : c ∈ V
    · have := ih S V hnd.2
      rw [pushUnvisited] at this
      simp only [hc, if_true]
      rw [this]; simp [hc]
    · have := ih (c :: S) (insert c V) hnd.2
      rw [pushUnvisited] at this
      simp only [hc, if_false]
      rw [this]
      have hf : cs.filter (fun x => x ∉ insert c V) = cs.filter (fun x => x ∉ V) := by
        apply List.filter_congr
        intro x hx
        have : x ≠ c := fun h => hnd.1 (h ▸ hx)
        simp [this]
      rw [hf]
      ext1
      · simp [hc]
      · ext x; simp [hc]

theorem dfs_simulates (ch : ι → List ι) (G : ι) (C0 : Coll ι) (hnd : ∀ u, (ch u).Nodup) :
    ∀ (n : Nat) (st : TarjanSt ι) (d : DfsSt ι) (out : List ι) (fd ft : Nat), tarjanMeasure st ≤ n →
      tarjanMeasure st ≤ ft → dfsMeasure ch d ≤ fd → TarjanInv ch G C0 st out →
      d.S = st.S → d.V = st.V → d.C = st.C → (dfsLoop ch fd d).C = (tarjanLoop ch ft st).C := by
  intro n
  induction n with
  | zero =>
    intro st d out fd ft hn hft hfd h eS eV eC
    have hS : st.S = [] := by
      by_contra hS
      have := tarjanMeasure_step h hS
      omega
    have h1 : tarjanLoop ch ft st = st := by cases ft <;> simp [tarjanLoop, hS]
    have h2 : dfsLoop ch fd d = d := by cases fd <;> simp [dfsLoop, eS, hS]
    rw [h1, h2, eC]
  | succ n ih =>
    intro st d out fd ft hn hft hfd h eS eV eC
    by_cases hS : st.S = []
    · have h1 : tarjanLoop ch ft st = st := by cases ft <;> simp [tarjanLoop, hS]
      have h2 : dfsLoop ch fd d = d := by cases fd <;> simp [dfsLoop, eS, hS]
      rw [h1, h2, eC]
    · have hlt := tarjanMeasure_step h hS
      have hdS : d.S ≠ [] := by rw [eS]; exact hS
      have hdlt := dfsMeasure_step (ch := ch) hdS
      obtain ⟨fd, rfl⟩ : ∃ k, fd = k + 1 := ⟨fd - 1, by omega⟩
      obtain ⟨ft, rfl⟩ : ∃ k, ft = k + 1 := ⟨ft - 1, by omega⟩
      rw [dfsLoop, tarjanLoop, if_neg hdS, if_neg hS]
      obtain ⟨u, rest, hS'⟩ : ∃ u rest, st.S = u :: rest := by
        cases hh : st.S with
        | nil => exact absurd hh hS
        | cons u rest => exact ⟨u, rest, rfl⟩
      have hdS' : d.S = u :: rest := by rw [eS, hS']
      by_cases hu : u ∈ st.P
      · have hm : dfsM ch d u = [] := by
          rw [dfsM, List.filter_eq_nil_iff]
          intro c hc
          have := h.closed u hu c hc
          simp [eV, this]
        have e : tarjanStep ch st = { st with S := rest, C := st.C.give u } := by simp [tarjanStep, hS', hu]
        refine ih _ _ (out ++ tarjanEmit st) fd ft (by omega) (by omega) (by omega) (tarjanStep_inv h) ?_ ?_ ?_
        · rw [dfsStep_give hdS' hm, e]
        · rw [dfsStep_give hdS' hm, e]; exact eV
        · rw [dfsStep_give hdS' hm, e]; simp [eC]
      · have hmm : dfsM ch d u = (ch u).filter (fun c => c ∉ st.V) := by rw [dfsM, eV]
        have e : tarjanStep ch st =
            { S := (dfsM ch d u).reverse ++ u :: rest, P := insert u st.P, V := st.V ∪ (dfsM ch d u).toFinset, C := st.C } := by
          simp [tarjanStep, hS', hu, pushUnvisited_nodup _ _ _ (hnd u), hmm]
        by_cases hm : dfsM ch d u = []
        · -- the Tarjan loop needs two iterations
          have e' : tarjanStep ch st = { S := u :: rest, P := insert u st.P, V := st.V, C := st.C } := by
            rw [e, hm]; simp
          have h' := tarjanStep_inv (ch := ch) h
          have hS2 : (tarjanStep ch st).S ≠ [] := by rw [e']; simp
          have hlt2 := tarjanMeasure_step h' hS2
          have hft2 : tarjanMeasure (tarjanStep ch st) ≤ ft := by omega
          obtain ⟨ft, rfl⟩ : ∃ k, ft = k + 1 := ⟨ft - 1, by omega⟩
          rw [tarjanLoop, if_neg hS2]
          have e2 : tarjanStep ch (tarjanStep ch st) = { S := rest, P := insert u st.P, V := st.V, C := st.C.give u } := by
            rw [e']; simp [tarjanStep]
          refine ih _ _ _ fd ft (by omega) (by omega) (by omega) (tarjanStep_inv h') ?_ ?_ ?_
          · rw [dfsStep_give hdS' hm, e2]
          · rw [dfsStep_give hdS' hm, e2]; exact eV
          · rw [dfsStep_give hdS' hm, e2]; simp [eC]
        · refine ih _ _ (out ++ tarjanEmit st) fd ft (by omega) (by omega) (by omega) (tarjanStep_inv h) ?_ ?_ ?_
          · rw [dfsStep_expand hdS' hm, e]
          · rw [dfsStep_expand hdS' hm, e, eV]
          · rw [dfsStep_expand hdS' hm, e]; simp [eC]

theorem topSortDFS_eq_tarjan (ch : ι → List ι) (G : ι) (C : Option (Coll ι)) (hnd : ∀ u, (ch u).Nodup) :
    topSortDFS ch G C = topSortTarjan ch G C := by
  refine dfs_simulates ch G (Coll.orQueue C) hnd _ (tarjanInit G (Coll.orQueue C)) _ [] _ _ le_rfl ?_ ?_ (tarjanInit_inv ch G _) rfl rfl rfl
  · rw [tarjanMeasure_init]
  · exact dfsMeasure_init ch G _

end Gospn
