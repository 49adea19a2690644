import Verif.Model.Topo
import Verif.Spec.Graph
import Mathlib.Data.Finset.Card
/- Helper lemmas for the topological orderings. -/
set_option linter.unusedSectionVars false
namespace Gospn
open Spec
variable {ι : Type}

/-- Giving a list of elements one after the other. -/
def Coll.giveAll (C : Coll ι) (out : List ι) : Coll ι := out.foldl Coll.give C

@[simp] theorem Coll.giveAll_nil (C : Coll ι) : C.giveAll [] = C := rfl

theorem Coll.giveAll_append (C : Coll ι) (a b : List ι) : C.giveAll (a ++ b) = (C.giveAll a).giveAll b := by
  simp [Coll.giveAll]

theorem Coll.giveAll_concat (C : Coll ι) (a : List ι) (x : ι) : C.giveAll (a ++ [x]) = (C.giveAll a).give x := by
  simp [Coll.giveAll]

theorem Coll.giveAll_queue (l a : List ι) : (Coll.giveAll ⟨false, l⟩ a) = ⟨false, l ++ a⟩ := by
  induction a generalizing l with
  | nil => simp
  | cons x a ih =>
    have : Coll.giveAll ⟨false, l⟩ (x :: a) = Coll.giveAll ⟨false, l ++ [x]⟩ a := by simp [Coll.giveAll, Coll.give]
    rw [this, ih]; simp

theorem Coll.giveAll_stack (l a : List ι) : (Coll.giveAll ⟨true, l⟩ a) = ⟨true, a.reverse ++ l⟩ := by
  induction a generalizing l with
  | nil => simp
  | cons x a ih =>
    have : Coll.giveAll ⟨true, l⟩ (x :: a) = Coll.giveAll ⟨true, x :: l⟩ a := by simp [Coll.giveAll, Coll.give]
    rw [this, ih]; simp

theorem Spec.Reach.rank_le {ch : ι → List ι} {rank : ι → Nat} (hr : ∀ u, ∀ c ∈ ch u, rank c < rank u) {u v : ι}
    (h : Reach ch u v) : rank v ≤ rank u := by
  induction h with
  | refl => exact le_refl _
  | tail _ hc ih => exact le_trans (le_of_lt (hr _ _ hc)) ih

theorem Spec.Acyclic.not_reach_parent {ch : ι → List ι} (h : Acyclic ch) {u c : ι} (hc : c ∈ ch u) : ¬ Reach ch c u := by
  obtain ⟨rank, hr⟩ := h
  intro hreach
  have h1 := Reach.rank_le hr hreach
  have h2 := hr _ _ hc
  omega

theorem Spec.Acyclic.reach_antisymm {ch : ι → List ι} (h : Acyclic ch) {u v : ι} (h1 : Reach ch u v) (h2 : Reach ch v u) : u = v := by
  rcases Relation.ReflTransGen.cases_head h1 with rfl | ⟨c, hc, hcv⟩
  · rfl
  · exact absurd (Relation.ReflTransGen.trans hcv h2) (h.not_reach_parent hc)

theorem Spec.TransitivelyReduced.siblingOrdered {ch : ι → List ι} {G : ι} (h : TransitivelyReduced ch G) : SiblingOrdered ch G := by
  intro w hw
  rw [List.pairwise_iff_getElem]
  intro i j hi hj _ hne hr
  exact hne (h w hw _ (List.getElem_mem hi) _ (List.getElem_mem hj) hr).symm

variable [DecidableEq ι]

/-- What a (partial) depth-first visit from `roots`, starting with visited set `V`, emits. -/
structure VisitOK (ch : ι → List ι) (V : Finset ι) (roots out : List ι) : Prop where
  nodup : out.Nodup
  fresh : ∀ x ∈ out, x ∉ V
  reach : ∀ x ∈ out, ∃ r ∈ roots, Reach ch r x
  roots : ∀ r ∈ roots, r ∈ V ∨ r ∈ out
  closed : ∀ x ∈ out, ∀ c ∈ ch x, c ∈ V ∨ c ∈ out
  order : Acyclic ch → ∀ b x a, out = b ++ x :: a → ∀ c ∈ ch x, c ∈ b ∨ c ∈ V

theorem VisitOK.nil (ch : ι → List ι) (V : Finset ι) : VisitOK ch V [] [] :=
  ⟨by simp, by simp, by simp, by simp, by simp, by simp⟩

theorem VisitOK.visited (ch : ι → List ι) {V : Finset ι} {s : ι} (h : s ∈ V) : VisitOK ch V [s] [] :=
  ⟨by simp, by simp, by simp, by simp [h], by simp, by simp⟩

theorem VisitOK.cons {ch : ι → List ι} {V : Finset ι} {c : ι} {cs o1 o2 : List ι}
    (h1 : VisitOK ch V [c] o1) (h2 : VisitOK ch (V ∪ o1.toFinset) cs o2) : VisitOK ch V (c :: cs) (o1 ++ o2) := by
  have hf2 : ∀ x ∈ o2, x ∉ V ∧ x ∉ o1 := fun x hx => by
    have := h2.fresh x hx
    simpa [not_or] using this
  refine ⟨?_, ?_, ?_, ?_, ?_, ?_⟩
  · rw [List.nodup_append]
    exact ⟨h1.nodup, h2.nodup, fun a ha b hb hab => (hf2 b hb).2 (hab ▸ ha)⟩
  · intro x hx
    rcases List.mem_append.1 hx with hx | hx
    · exact h1.fresh x hx
    · exact (hf2 x hx).1
  · intro x hx
    rcases List.mem_append.1 hx with hx | hx
    · obtain ⟨r, hr, h⟩ := h1.reach x hx
      exact ⟨r, by simp at hr; simp [hr], h⟩
    · obtain ⟨r, hr, h⟩ := h2.reach x hx
      exact ⟨r, by simp [hr], h⟩
  · intro r hr
    rcases List.mem_cons.1 hr with rfl | hr
    · rcases h1.roots r (by simp) with h | h <;> simp [h]
    · rcases h2.roots r hr with h | h
      · rcases Finset.mem_union.1 h with h | h
        · exact Or.inl h
        · exact Or.inr (by simp at h; simp [h])
      · simp [h]
  · intro x hx c' hc'
    rcases List.mem_append.1 hx with hx | hx
    · rcases h1.closed x hx c' hc' with h | h <;> simp [h]
    · rcases h2.closed x hx c' hc' with h | h
      · rcases Finset.mem_union.1 h with h | h
        · exact Or.inl h
        · exact Or.inr (by simp at h; simp [h])
      · simp [h]
  · intro hac b x a he c' hc'
    rcases List.append_eq_append_iff.1 he with ⟨a', hb, ho⟩ | ⟨b', hb, ho⟩
    · rcases h2.order hac a' x a ho c' hc' with h | h
      · left; rw [hb]; simp [h]
      · rcases Finset.mem_union.1 h with h | h
        · exact Or.inr h
        · left; rw [hb]; simp at h; simp [h]
    · cases b' with
      | nil =>
        simp at hb ho
        rcases h2.order hac [] x a ho.symm c' hc' with h | h
        · simp at h
        · rcases Finset.mem_union.1 h with h | h
          · exact Or.inr h
          · left; rw [← hb]; simpa using h
      | cons y b' =>
        simp only [List.cons_append, List.cons.injEq] at ho
        obtain ⟨rfl, ho⟩ := ho
        exact h1.order hac b x b' hb c' hc'

theorem VisitOK.node {ch : ι → List ι} {V : Finset ι} {s : ι} {o : List ι} (hs : s ∉ V)
    (h : VisitOK ch (insert s V) (ch s) o) : VisitOK ch V [s] (o ++ [s]) := by
  refine ⟨?_, ?_, ?_, ?_, ?_, ?_⟩
  · rw [List.nodup_append]
    refine ⟨h.nodup, by simp, ?_⟩
    intro a ha b hb hab
    simp at hb
    exact h.fresh a ha (by simp [hab, hb])
  · intro x hx
    rcases List.mem_append.1 hx with hx | hx
    · have := h.fresh x hx; simp at this; exact this.2
    · simp at hx; rwa [hx]
  · intro x hx
    rcases List.mem_append.1 hx with hx | hx
    · obtain ⟨r, hr, h⟩ := h.reach x hx
      exact ⟨s, by simp, Relation.ReflTransGen.head hr h⟩
    · simp at hx; subst hx; exact ⟨x, by simp, Relation.ReflTransGen.refl⟩
  · intro r hr; simp at hr; subst hr; simp
  · intro x hx c hc
    rcases List.mem_append.1 hx with hx | hx
    · rcases h.closed x hx c hc with h' | h'
      · rcases Finset.mem_insert.1 h' with h' | h' <;> simp [h']
      · simp [h']
    · simp at hx; subst hx
      rcases h.roots c hc with h' | h'
      · rcases Finset.mem_insert.1 h' with h' | h' <;> simp [h']
      · simp [h']
  · intro hac b x a he c hc
    rcases List.append_eq_append_iff.1 he with ⟨a', hb, ho⟩ | ⟨b', hb, ho⟩
    · -- x = s
      have ha' : a' = [] := by
        cases a' with
        | nil => rfl
        | cons y a' => simp at ho
      subst ha'
      simp at ho hb
      obtain ⟨rfl, rfl⟩ := ho
      subst hb
      rcases h.roots c hc with h' | h'
      · rcases Finset.mem_insert.1 h' with h' | h'
        · subst h'; exact absurd Relation.ReflTransGen.refl (hac.not_reach_parent hc)
        · exact Or.inr h'
      · exact Or.inl h'
    · cases b' with
      | nil =>
        simp at ho hb
        obtain ⟨rfl, rfl⟩ := ho
        subst hb
        rcases h.roots c hc with h' | h'
        · rcases Finset.mem_insert.1 h' with h' | h'
          · subst h'; exact absurd Relation.ReflTransGen.refl (hac.not_reach_parent hc)
          · exact Or.inr h'
        · exact Or.inl h'
      | cons y b' =>
        simp only [List.cons_append, List.cons.injEq] at ho
        obtain ⟨rfl, ho⟩ := ho
        rcases h.order hac b x b' hb c hc with h' | h'
        · exact Or.inl h'
        · rcases Finset.mem_insert.1 h' with h' | h'
          · subst h'
            exfalso
            obtain ⟨r, hr, hrx⟩ := h.reach x (by rw [hb]; simp)
            exact hac.not_reach_parent hr (Relation.ReflTransGen.tail hrx hc)
          · exact Or.inr h'

variable [Fintype ι]

theorem card_compl_insert_lt {V : Finset ι} {s : ι} (hs : s ∉ V) : ((insert s V)ᶜ).card < (Vᶜ).card := by
  apply Finset.card_lt_card
  constructor
  · intro x; simp
  · intro h; have := @h s (by simp [hs]); simp at this

theorem card_compl_union_le (V W : Finset ι) : ((V ∪ W)ᶜ).card ≤ (Vᶜ).card := by
  apply Finset.card_le_card; intro x; simp; tauto

theorem visit_fold_spec (ch : ι → List ι) (fuel : Nat)
    (ih : ∀ (s : ι) (V : Finset ι), (Vᶜ).card < fuel →
      ∃ out, VisitOK ch V [s] out ∧ ∀ C, visit ch fuel s (V, C) = (V ∪ out.toFinset, C.giveAll out)) :
    ∀ (cs : List ι) (V : Finset ι), (Vᶜ).card < fuel →
      ∃ out, VisitOK ch V cs out ∧
        ∀ C, cs.foldl (fun st c => visit ch fuel c st) (V, C) = (V ∪ out.toFinset, C.giveAll out) := by
  intro cs
  induction cs with
  | nil => intro V _; exact ⟨[], VisitOK.nil ch V, by simp⟩
  | cons c cs ihc =>
    intro V hV
    obtain ⟨o1, h1, e1⟩ := ih c V hV
    obtain ⟨o2, h2, e2⟩ := ihc (V ∪ o1.toFinset) (lt_of_le_of_lt (card_compl_union_le _ _) hV)
    refine ⟨o1 ++ o2, h1.cons h2, fun C => ?_⟩
    rw [List.foldl_cons, e1, e2, Coll.giveAll_append, List.toFinset_append, Finset.union_assoc]

theorem visit_spec (ch : ι → List ι) : ∀ (fuel : Nat) (s : ι) (V : Finset ι), (Vᶜ).card < fuel →
    ∃ out, VisitOK ch V [s] out ∧ ∀ C, visit ch fuel s (V, C) = (V ∪ out.toFinset, C.giveAll out) := by
  intro fuel
  induction fuel with
  | zero => intro s V h; omega
  | succ fuel ih =>
    intro s V h
    by_cases hs : s ∈ V
    · exact ⟨[], VisitOK.visited ch hs, fun C => by simp [visit, hs]⟩
    · have hlt := card_compl_insert_lt hs
      obtain ⟨o, ho, e⟩ := visit_fold_spec ch fuel ih (ch s) (insert s V) (by omega)
      refine ⟨o ++ [s], ho.node hs, fun C => ?_⟩
      rw [visit, if_neg hs, e, Coll.giveAll_concat]
      have : insert s V ∪ o.toFinset = V ∪ (o ++ [s]).toFinset := by ext x; simp
      simp only [this]

theorem visit_eq_postOrderRec (ch : ι → List ι) : ∀ (fuel : Nat) (s : ι) (V : Finset ι) (C : Coll ι), (Vᶜ).card < fuel →
    visit ch fuel s (V, C) = if s ∈ V then (V, C) else postOrderRec ch fuel s (insert s V, C) := by
  intro fuel
  induction fuel with
  | zero => intro s V C h; omega
  | succ fuel ih =>
    intro s V C h
    by_cases hs : s ∈ V
    · simp [visit, hs]
    · have hlt := card_compl_insert_lt hs
      have key : ∀ (cs : List ι) (V : Finset ι) (C : Coll ι), (Vᶜ).card < fuel →
          cs.foldl (fun st c => visit ch fuel c st) (V, C) =
          cs.foldl (fun st c => if c ∈ st.1 then st else postOrderRec ch fuel c (insert c st.1, st.2)) (V, C) := by
        intro cs
        induction cs with
        | nil => intro V C _; rfl
        | cons c cs ihc =>
          intro V C hV
          obtain ⟨o1, _, e1⟩ := visit_spec ch fuel c V hV
          rw [List.foldl_cons, List.foldl_cons]
          have := ih c V C hV
          simp only
          rw [← this, e1]
          exact ihc _ _ (lt_of_le_of_lt (card_compl_union_le _ _) hV)
      rw [if_neg hs, visit, if_neg hs, postOrderRec, key _ _ _ (by omega)]

/-- The emission of the recursive orderings. -/
theorem visit_root_spec (ch : ι → List ι) (G : ι) :
    ∃ out, ListsReachable ch G out ∧ (Acyclic ch → ChildrenFirst ch out) ∧
      (∀ C, topSortTarjanRec ch G C = (Coll.orQueue C).giveAll out) ∧
      (∀ C, postOrder ch G C = (Coll.orQueue C).giveAll out) := by
  have hc : (((∅ : Finset ι))ᶜ).card < Fintype.card ι + 1 := by simp
  obtain ⟨out, h, e⟩ := visit_spec ch (Fintype.card ι + 1) G ∅ hc
  refine ⟨out, ⟨h.nodup, fun x => ⟨fun hx => ?_, fun hx => ?_⟩⟩, ?_, ?_, ?_⟩
  · obtain ⟨r, hr, h⟩ := h.reach x hx
    simp at hr; exact hr ▸ h
  · induction hx with
    | refl => simpa using h.roots G (by simp)
    | tail _ hc ih => simpa using h.closed _ ih _ hc
  · intro hac b x a he c hc
    simpa using h.order hac b x a he c hc
  · intro C; rw [topSortTarjanRec, e]
  · intro C
    have := visit_eq_postOrderRec ch (Fintype.card ι + 1) G ∅ (Coll.orQueue C) hc
    rw [e] at this
    simp at this
    rw [postOrder]
    show (postOrderRec ch (Fintype.card ι + 1) G (insert G ∅, Coll.orQueue C)).2 = _
    simp [← this]

end Gospn
