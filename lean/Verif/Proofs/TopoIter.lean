import Verif.Proofs.Topo
/- Helper lemmas for the iterative topological orderings. -/
set_option linter.unusedSectionVars false
namespace Gospn
open Spec
variable {ι : Type} [DecidableEq ι]

theorem pushUnvisited_spec (cs : List ι) : ∀ (S : List ι) (V : Finset ι),
    ∃ news : List ι, news.Nodup ∧ news.Sublist cs ∧ (∀ x ∈ news, x ∉ V) ∧ (∀ c ∈ cs, c ∈ V ∨ c ∈ news) ∧
      pushUnvisited cs S V = (news.reverse ++ S, V ∪ news.toFinset) := by
  induction cs with
  | nil => intro S V; exact ⟨[], by simp, by simp, by simp, by simp, by simp [pushUnvisited]⟩
  | cons c cs ih =>
    intro S V
    by_cases hc : c ∈ V
    · obtain ⟨news, h1, h2, h3, h4, h5⟩ := ih S V
      refine ⟨news, h1, h2.trans (List.sublist_cons_self _ _), h3, ?_, ?_⟩
      · intro x hx
        rcases List.mem_cons.1 hx with rfl | hx
        · exact Or.inl hc
        · exact h4 x hx
      · rw [pushUnvisited, List.foldl_cons]
        simp only [hc, if_true]
        exact h5
    · obtain ⟨news, h1, h2, h3, h4, h5⟩ := ih (c :: S) (insert c V)
      refine ⟨c :: news, ?_, h2.cons_cons c, ?_, ?_, ?_⟩
      · rw [List.nodup_cons]
        exact ⟨fun h => h3 c h (by simp), h1⟩
      · intro x hx
        rcases List.mem_cons.1 hx with rfl | hx
        · exact hc
        · have := h3 x hx; simp at this; exact this.2
      · intro x hx
        rcases List.mem_cons.1 hx with rfl | hx
        · exact Or.inr (by simp)
        · rcases h4 x hx with h | h
          · rcases Finset.mem_insert.1 h with h | h
            · exact Or.inr (by simp [h])
            · exact Or.inl h
          · exact Or.inr (by simp [h])
      · rw [pushUnvisited, List.foldl_cons]
        simp only [hc, if_false]
        have h5' := h5
        rw [pushUnvisited] at h5'
        rw [h5']
        ext1
        · simp
        · ext x; simp

/-- Loop invariant of `TopSortTarjan` (any graph). `out` is what has been given to the collection so far. -/
structure TarjanInv (ch : ι → List ι) (G : ι) (C0 : Coll ι) (st : TarjanSt ι) (out : List ι) : Prop where
  coll : st.C = C0.giveAll out
  nodupS : st.S.Nodup
  nodupOut : out.Nodup
  disj : ∀ x ∈ out, x ∉ st.S
  vis : ∀ x, x ∈ st.V ↔ x ∈ st.S ∨ x ∈ out
  outP : ∀ x ∈ out, x ∈ st.P
  PV : ∀ x ∈ st.P, x ∈ st.V
  closed : ∀ x ∈ st.P, ∀ c ∈ ch x, c ∈ st.V
  reach : ∀ x ∈ st.V, Reach ch G x
  root : G ∈ st.V

/-- The additional invariant that gives the order. -/
structure TarjanOrd (ch : ι → List ι) (st : TarjanSt ι) (out : List ι) : Prop where
  stack : st.S.Pairwise (fun y x => (x ∈ st.P → Reach ch x y) ∧ (x ∉ st.P → ¬ Reach ch y x))
  order : ChildrenFirst ch out

theorem tarjanInit_inv (ch : ι → List ι) (G : ι) (C0 : Coll ι) : TarjanInv ch G C0 (tarjanInit G C0) [] := by
  refine ⟨rfl, by simp [tarjanInit], by simp, by simp, by simp [tarjanInit], by simp, by simp [tarjanInit], by simp [tarjanInit],
    ?_, by simp [tarjanInit]⟩
  intro x hx
  simp [tarjanInit] at hx
  subst hx; exact Relation.ReflTransGen.refl

theorem tarjanInit_ord (ch : ι → List ι) (G : ι) (C0 : Coll ι) : TarjanOrd ch (tarjanInit G C0) [] :=
  ⟨by simp [tarjanInit], by intro b x a h; simp at h⟩

/-- What one iteration does to the emitted list. -/
def tarjanEmit (st : TarjanSt ι) : List ι :=
  match st.S with
  | [] => []
  | u :: _ => if u ∈ st.P then [u] else []

theorem tarjanStep_inv {ch : ι → List ι} {G : ι} {C0 : Coll ι} {st : TarjanSt ι} {out : List ι}
    (h : TarjanInv ch G C0 st out) : TarjanInv ch G C0 (tarjanStep ch st) (out ++ tarjanEmit st) := by
  cases hS : st.S with
  | nil => simpa [tarjanStep, tarjanEmit, hS] using h
  | cons u rest =>
    have hnd := h.nodupS
    rw [hS, List.nodup_cons] at hnd
    by_cases hu : u ∈ st.P
    · have e : tarjanStep ch st = { st with S := rest, C := st.C.give u } := by simp [tarjanStep, hS, hu]
      rw [e]
      have e2 : tarjanEmit st = [u] := by simp [tarjanEmit, hS, hu]
      rw [e2]
      have hu_out : u ∉ out := fun hx => h.disj u hx (by simp [hS])
      refine ⟨?_, hnd.2, ?_, ?_, ?_, ?_, h.PV, h.closed, h.reach, h.root⟩
      · simp [h.coll, Coll.giveAll_concat]
      · rw [List.nodup_append]
        exact ⟨h.nodupOut, by simp, fun a ha b hb hab => by simp at hb; exact hu_out (by rw [← hb, ← hab]; exact ha)⟩
      · intro x hx
        rcases List.mem_append.1 hx with hx | hx
        · have := h.disj x hx; rw [hS] at this; simp at this; exact this.2
        · simp at hx; subst hx; exact hnd.1
      · intro x
        have := h.vis x
        rw [hS] at this
        simp only [List.mem_append, List.mem_cons, List.not_mem_nil, or_false] at this ⊢
        rw [this]; tauto
      · intro x hx
        rcases List.mem_append.1 hx with hx | hx
        · exact h.outP x hx
        · simp at hx; subst hx; exact hu
    · obtain ⟨news, n1, n2, n3, n4, n5⟩ := pushUnvisited_spec (ch u) (u :: rest) st.V
      have e : tarjanStep ch st = { S := news.reverse ++ u :: rest, P := insert u st.P, V := st.V ∪ news.toFinset, C := st.C } := by
        simp [tarjanStep, hS, hu, n5]
      have e2 : tarjanEmit st = [] := by simp [tarjanEmit, hS, hu]
      rw [e, e2, List.append_nil]
      have huV : u ∈ st.V := (h.vis u).2 (by simp [hS])
      refine ⟨h.coll, ?_, h.nodupOut, ?_, ?_, ?_, ?_, ?_, ?_, ?_⟩
      · show (news.reverse ++ u :: rest).Nodup
        rw [List.nodup_append]
        refine ⟨List.nodup_reverse.2 n1, hS ▸ h.nodupS, ?_⟩
        intro a ha b hb hab
        subst hab
        exact n3 a (by simpa using ha) ((h.vis a).2 (Or.inl (by rw [hS]; exact hb)))
      · intro x hx hmem
        rcases List.mem_append.1 hmem with hm | hm
        · exact n3 x (by simpa using hm) ((h.vis x).2 (Or.inr hx))
        · exact h.disj x hx (by rw [hS]; exact hm)
      · intro x
        have := h.vis x
        rw [hS] at this
        simp only [List.mem_append, List.mem_cons, Finset.mem_union, List.mem_toFinset, List.mem_reverse] at this ⊢
        rw [this]; tauto
      · intro x hx; simp [h.outP x hx]
      · intro x hx
        simp only [Finset.mem_insert] at hx
        rcases hx with rfl | hx
        · simp [huV]
        · simp [h.PV x hx]
      · intro x hx c hc
        simp only [Finset.mem_insert] at hx
        simp only [Finset.mem_union, List.mem_toFinset]
        rcases hx with rfl | hx
        · exact n4 c hc
        · exact Or.inl (h.closed x hx c hc)
      · intro x hx
        simp only [Finset.mem_union, List.mem_toFinset] at hx
        rcases hx with hx | hx
        · exact h.reach x hx
        · exact Relation.ReflTransGen.tail (h.reach u huV) (n2.subset hx)
      · simp [h.root]

theorem tarjanStep_ord {ch : ι → List ι} {G : ι} {C0 : Coll ι} {st : TarjanSt ι} {out : List ι}
    (hac : Acyclic ch) (hso : SiblingOrdered ch G) (h : TarjanInv ch G C0 st out) (ho : TarjanOrd ch st out) :
    TarjanOrd ch (tarjanStep ch st) (out ++ tarjanEmit st) := by
  cases hS : st.S with
  | nil => simpa [tarjanStep, tarjanEmit, hS] using ho
  | cons u rest =>
    have hpw := ho.stack
    rw [hS, List.pairwise_cons] at hpw
    by_cases hu : u ∈ st.P
    · have e : tarjanStep ch st = { st with S := rest, C := st.C.give u } := by simp [tarjanStep, hS, hu]
      have e2 : tarjanEmit st = [u] := by simp [tarjanEmit, hS, hu]
      rw [e, e2]
      refine ⟨hpw.2, ?_⟩
      have key : ∀ c ∈ ch u, c ∈ out := by
        intro c hc
        have hcV := h.closed u hu c hc
        rcases (h.vis c).1 hcV with hcS | hco
        · exfalso
          rw [hS] at hcS
          rcases List.mem_cons.1 hcS with rfl | hcS
          · exact hac.not_reach_parent hc Relation.ReflTransGen.refl
          · have hp := hpw.1 c hcS
            by_cases hcP : c ∈ st.P
            · exact hac.not_reach_parent hc (hp.1 hcP)
            · exact hp.2 hcP (Relation.ReflTransGen.single hc)
        · exact hco
      intro b x a he c hc
      rcases List.append_eq_append_iff.1 he with ⟨a', hb, hox⟩ | ⟨b', hb, hox⟩
      · cases a' with
        | nil =>
          simp at hb hox
          rw [hb]; rw [hox.1] at key; exact key c hc
        | cons y a' => simp at hox
      · cases b' with
        | nil =>
          simp at hb hox
          rw [← hb]; rw [← hox.1] at key; exact key c hc
        | cons y b' =>
          simp only [List.cons_append, List.cons.injEq] at hox
          obtain ⟨rfl, hox⟩ := hox
          exact ho.order b x b' hb c hc
    · obtain ⟨news, n1, n2, n3, n4, n5⟩ := pushUnvisited_spec (ch u) (u :: rest) st.V
      have e : tarjanStep ch st = { S := news.reverse ++ u :: rest, P := insert u st.P, V := st.V ∪ news.toFinset, C := st.C } := by
        simp [tarjanStep, hS, hu, n5]
      have e2 : tarjanEmit st = [] := by simp [tarjanEmit, hS, hu]
      rw [e, e2, List.append_nil]
      have huV : u ∈ st.V := (h.vis u).2 (by simp [hS])
      have hnd := h.nodupS
      rw [hS, List.nodup_cons] at hnd
      refine ⟨?_, ho.order⟩
      show (news.reverse ++ u :: rest).Pairwise (fun y x => (x ∈ insert u st.P → Reach ch x y) ∧ (x ∉ insert u st.P → ¬ Reach ch y x))
      have hnewsP : ∀ x ∈ news, x ∉ insert u st.P := by
        intro x hx hxP
        rcases Finset.mem_insert.1 hxP with rfl | hxP
        · exact n3 x hx huV
        · exact n3 x hx (h.PV x hxP)
      have hrest : ∀ x ∈ rest, x ≠ u := fun x hx hxu => hnd.1 (hxu ▸ hx)
      rw [List.pairwise_append]
      refine ⟨?_, ?_, ?_⟩
      · rw [List.pairwise_reverse]
        have hs := (hso u (h.reach u huV)).sublist n2
        have hs2 := List.Pairwise.and hs n1
        refine (List.Pairwise.imp_of_mem ?_ hs2)
        intro a b ha hb hab
        exact ⟨fun hx => absurd hx (hnewsP a ha), fun _ => hab.1 hab.2⟩
      · rw [List.pairwise_cons]
        refine ⟨fun x hx => ?_, ?_⟩
        · have hp := hpw.1 x hx
          refine ⟨fun hxP => ?_, fun hxP => ?_⟩
          · rcases Finset.mem_insert.1 hxP with hxu | hxP
            · exact absurd hxu (hrest x hx)
            · exact hp.1 hxP
          · exact hp.2 (fun h' => hxP (Finset.mem_insert_of_mem h'))
        · refine (List.Pairwise.imp_of_mem ?_ hpw.2)
          intro a b ha hb hab
          refine ⟨fun hxP => ?_, fun hxP => ?_⟩
          · rcases Finset.mem_insert.1 hxP with hxu | hxP
            · exact absurd hxu (hrest b hb)
            · exact hab.1 hxP
          · exact hab.2 (fun h' => hxP (Finset.mem_insert_of_mem h'))
      · intro y hy x hx
        have hyc : y ∈ ch u := n2.subset (by simpa using hy)
        rcases List.mem_cons.1 hx with rfl | hx
        · exact ⟨fun _ => Relation.ReflTransGen.single hyc, fun hn => absurd (Finset.mem_insert_self _ _) hn⟩
        · have hp := hpw.1 x hx
          refine ⟨fun hxP => ?_, fun hxP hyx => ?_⟩
          · rcases Finset.mem_insert.1 hxP with hxu | hxP
            · exact absurd hxu (hrest x hx)
            · exact Relation.ReflTransGen.tail (hp.1 hxP) hyc
          · exact hp.2 (fun h' => hxP (Finset.mem_insert_of_mem h')) (Relation.ReflTransGen.head hyc hyx)

variable [Fintype ι]

/-- Decreasing measure of the loop. -/
def tarjanMeasure (st : TarjanSt ι) : Nat :=
  2 * (st.Vᶜ).card + (st.S.map (fun x => if x ∈ st.P then 1 else 2)).sum

theorem tarjanMeasure_init (G : ι) (C : Coll ι) : tarjanMeasure (tarjanInit G C) = 2 * Fintype.card ι := by
  simp [tarjanMeasure, tarjanInit, Finset.card_compl]
  have : 0 < Fintype.card ι := Fintype.card_pos_iff.2 ⟨G⟩
  omega

theorem tarjanMeasure_step {ch : ι → List ι} {G : ι} {C0 : Coll ι} {st : TarjanSt ι} {out : List ι}
    (h : TarjanInv ch G C0 st out) (hne : st.S ≠ []) : tarjanMeasure (tarjanStep ch st) < tarjanMeasure st := by
  cases hS : st.S with
  | nil => exact absurd hS hne
  | cons u rest =>
    have hnd := h.nodupS
    rw [hS, List.nodup_cons] at hnd
    by_cases hu : u ∈ st.P
    · have e : tarjanStep ch st = { st with S := rest, C := st.C.give u } := by simp [tarjanStep, hS, hu]
      rw [e]; simp [tarjanMeasure, hS, hu]
    · obtain ⟨news, n1, n2, n3, n4, n5⟩ := pushUnvisited_spec (ch u) (u :: rest) st.V
      have e : tarjanStep ch st = { S := news.reverse ++ u :: rest, P := insert u st.P, V := st.V ∪ news.toFinset, C := st.C } := by
        simp [tarjanStep, hS, hu, n5]
      rw [e]
      have huV : u ∈ st.V := (h.vis u).2 (by simp [hS])
      have hc : ((st.V ∪ news.toFinset)ᶜ).card + news.length = (st.Vᶜ).card := by
        have h1 : (st.V ∪ news.toFinset).card = st.V.card + news.length := by
          rw [Finset.card_union_of_disjoint, List.toFinset_card_of_nodup n1]
          rw [Finset.disjoint_left]; intro a ha hb; exact n3 a (by simpa using hb) ha
        have h2 := Finset.card_compl_add_card (st.V ∪ news.toFinset)
        have h3 := Finset.card_compl_add_card st.V
        omega
      have hrest : (rest.map (fun x => if x ∈ insert u st.P then 1 else 2)) = rest.map (fun x => if x ∈ st.P then 1 else 2) := by
        apply List.map_congr_left
        intro x hx
        have : x ≠ u := fun hxu => hnd.1 (hxu ▸ hx)
        simp [this]
      have hnews : (news.reverse.map (fun x => if x ∈ insert u st.P then 1 else 2)).sum = 2 * news.length := by
        have : news.reverse.map (fun x => if x ∈ insert u st.P then 1 else 2) = news.reverse.map (fun _ => 2) := by
          apply List.map_congr_left
          intro x hx
          have hx' : x ∈ news := by simpa using hx
          have h1 : x ≠ u := fun hxu => n3 x hx' (hxu ▸ huV)
          have h2 : x ∉ st.P := fun hp => n3 x hx' (h.PV x hp)
          simp [h1, h2]
        rw [this]; simp; omega
      simp only [tarjanMeasure, hS, List.map_append, List.sum_append, List.map_cons, List.sum_cons, hrest, hnews, hu, if_false]
      simp only [Finset.mem_insert, true_or, if_true]
      omega

/-- Running the loop with enough fuel ends with an empty stack and keeps all step-invariant facts. -/
theorem tarjanLoop_induct {ch : ι → List ι} {G : ι} {C0 : Coll ι} (P : TarjanSt ι → List ι → Prop)
    (hstep : ∀ st out, TarjanInv ch G C0 st out → P st out → P (tarjanStep ch st) (out ++ tarjanEmit st)) :
    ∀ (fuel : Nat) (st : TarjanSt ι) (out : List ι), TarjanInv ch G C0 st out → P st out → tarjanMeasure st ≤ fuel →
      ∃ out', TarjanInv ch G C0 (tarjanLoop ch fuel st) out' ∧ P (tarjanLoop ch fuel st) out' ∧ (tarjanLoop ch fuel st).S = [] := by
  intro fuel
  induction fuel with
  | zero =>
    intro st out h hp hm
    have hS : st.S = [] := by
      cases hS : st.S with
      | nil => rfl
      | cons u rest =>
        exfalso
        have := tarjanMeasure_step h (by simp [hS])
        omega
    exact ⟨out, h, hp, hS⟩
  | succ fuel ih =>
    intro st out h hp hm
    by_cases hS : st.S = []
    · rw [tarjanLoop, if_pos hS]; exact ⟨out, h, hp, hS⟩
    · rw [tarjanLoop, if_neg hS]
      have := tarjanMeasure_step h hS
      exact ih _ _ (tarjanStep_inv h) (hstep st out h hp) (by omega)

theorem TarjanInv.final {ch : ι → List ι} {G : ι} {C0 : Coll ι} {st : TarjanSt ι} {out : List ι}
    (h : TarjanInv ch G C0 st out) (hS : st.S = []) : ListsReachable ch G out := by
  have hv : ∀ x, x ∈ st.V ↔ x ∈ out := by intro x; rw [h.vis x, hS]; simp
  refine ⟨h.nodupOut, fun x => ⟨fun hx => h.reach x ((hv x).2 hx), fun hx => ?_⟩⟩
  induction hx with
  | refl => exact (hv G).1 h.root
  | tail _ hc ih => exact (hv _).1 (h.closed _ (h.outP _ ih) _ hc)

/-- The list of nodes emitted by the loop from a state. -/
def tarjanOut (ch : ι → List ι) : Nat → TarjanSt ι → List ι
  | 0, _ => []
  | fuel + 1, st => if st.S = [] then [] else tarjanEmit st ++ tarjanOut ch fuel (tarjanStep ch st)

theorem tarjanStep_coll (ch : ι → List ι) (st : TarjanSt ι) : (tarjanStep ch st).C = st.C.giveAll (tarjanEmit st) := by
  unfold tarjanStep tarjanEmit
  cases st.S with
  | nil => rfl
  | cons u rest => by_cases hu : u ∈ st.P <;> simp [hu, Coll.giveAll]

theorem tarjanLoop_coll (ch : ι → List ι) : ∀ (fuel : Nat) (st : TarjanSt ι),
    (tarjanLoop ch fuel st).C = st.C.giveAll (tarjanOut ch fuel st) := by
  intro fuel
  induction fuel with
  | zero => intro st; rfl
  | succ fuel ih =>
    intro st
    by_cases hS : st.S = []
    · simp [tarjanLoop, tarjanOut, hS]
    · rw [tarjanLoop, tarjanOut, if_neg hS, if_neg hS, ih, tarjanStep_coll, Coll.giveAll_append]

end Gospn
