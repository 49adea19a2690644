/-
The region graph of learn/dennis: every partition splits its region in two, and every region of more than one variable has a partition.
-/
import Verif.Spec.Dennis
import Verif.Proofs.Topo
import Verif.Proofs.LearnShape

set_option linter.unusedSectionVars false
set_option linter.unusedSimpArgs false

namespace Gospn
open Spec GoFloat

/-! ### Scopes -/

theorem Scope.subsetOf_iff (s t : Scope) : s.subsetOf t = true ↔ s ⊆ t := by
  unfold Scope.subsetOf
  rw [decide_eq_true_iff]
  exact Iff.rfl

theorem Scope.equal_iff (s t : Scope) : s.equal t = true ↔ s = t := by
  unfold Scope.equal
  split
  · rename_i h
    simp only [Bool.false_eq_true, false_iff]
    rintro rfl
    exact h rfl
  · rename_i h
    have h : s.card = t.card := by simpa using h
    simp only [show ¬ s.card > t.card by omega, if_false]
    rw [decide_eq_true_iff]
    constructor
    · intro h'
      exact (Finset.eq_of_subset_of_card_le (fun k hk => h' k hk) (by omega)).symm
    · rintro rfl k hk
      exact hk

theorem Scope.minus_eq (s t : Scope) : s.minus t = s \ t := by
  unfold Scope.minus
  rw [Finset.sdiff_eq_filter]

theorem Scope.lenIntersect_eq (s t : Scope) : s.lenIntersect t = (s ∩ t).card := by
  unfold Scope.lenIntersect
  rw [Finset.inter_comm, Finset.filter_mem_eq_inter]

theorem Scope.lenUnion_eq (s t : Scope) : s.lenUnion t = (s ∪ t).card := by
  unfold Scope.lenUnion
  split
  · rename_i l T S h
    rw [← Finset.sdiff_eq_filter]
    split at h <;> cases h
    · rw [Finset.union_comm, ← Finset.union_sdiff_self_eq_union, Finset.card_union_of_disjoint Finset.disjoint_sdiff]
    · rw [← Finset.union_sdiff_self_eq_union, Finset.card_union_of_disjoint Finset.disjoint_sdiff]

theorem any_equal (S : List Scope) (s : Scope) : (S.any fun r => s.equal r) = true ↔ s ∈ S := by
  rw [List.any_eq_true]
  constructor
  · rintro ⟨r, hr, h⟩
    rw [(Scope.equal_iff s r).1 h]
    exact hr
  · exact fun h => ⟨s, h, (Scope.equal_iff s s).2 rfl⟩

theorem Spec.ProperSplit.sub {s a b : Finset Int} (h : ProperSplit s a b) : a ⊆ s ∧ b ⊆ s ∧ a ≠ s ∧ b ≠ s := by
  obtain ⟨rfl, h2, h3, h4⟩ := h
  refine ⟨Finset.subset_union_left, Finset.subset_union_right, ?_, ?_⟩
  · intro h
    obtain ⟨x, hx⟩ := h4
    have : x ∈ a := by rw [h]; exact Finset.mem_union_right _ hx
    exact (Finset.disjoint_left.1 h2 this) hx
  · intro h
    obtain ⟨x, hx⟩ := h3
    have : x ∈ b := by rw [h]; exact Finset.mem_union_left _ hx
    exact (Finset.disjoint_left.1 h2 hx) this

theorem Spec.ProperSplit.card_lt {s a b : Finset Int} (h : ProperSplit s a b) : a.card < s.card ∧ b.card < s.card := by
  obtain ⟨h1, h2, h3, h4⟩ := h.sub
  exact ⟨Finset.card_lt_card (Finset.ssubset_iff_subset_ne.2 ⟨h1, h3⟩), Finset.card_lt_card (Finset.ssubset_iff_subset_ne.2 ⟨h2, h4⟩)⟩

/-! ### The region graph -/

/-- What holds of the region graph at all times. -/
structure RInv (root : Scope) (G : RGraph) : Prop where
  head : ∃ l, G.R = root :: l
  sub : ∀ s ∈ G.R, s ⊆ root ∧ s.Nonempty
  split : ∀ s, ∀ p ∈ G.ch s, s ∈ G.R ∧ p.1 ∈ G.R ∧ p.2 ∈ G.R ∧ ProperSplit s p.1 p.2
  keys : ∀ k, k ∈ G.P ↔ ∃ s, ∃ p ∈ G.ch s, k = (G.id s, G.id p.1, G.id p.2)
  nodup : ∀ s, (G.ch s).Nodup

/-- Regions of more than one variable have a partition, unless they are in `pend`. -/
def Expanded (G : RGraph) (pend : Scope → Prop) : Prop := ∀ s ∈ G.R, 1 < s.card → G.ch s = [] → pend s

theorem newRGraph_inv {sc : Scope} (h : sc.Nonempty) : RInv sc (newRGraph sc) := by
  refine ⟨⟨[], rfl⟩, ?_, ?_, ?_, ?_⟩
  · intro s hs
    simp only [newRGraph, List.mem_singleton] at hs
    subst hs
    exact ⟨Finset.Subset.refl _, h⟩
  · intro s p hp
    simp [newRGraph] at hp
  · intro k
    simp [newRGraph]
  · intro s
    simp [newRGraph]

theorem validate_eq (G : RGraph) (s : Scope) : G.validate s = if s ∈ G.R then G else { G with R := G.R ++ [s] } := by
  unfold RGraph.validate
  by_cases h : s ∈ G.R
  · rw [if_pos h, if_pos ((any_equal _ _).2 h)]
  · rw [if_neg h, if_neg (fun h' => h ((any_equal _ _).1 h'))]

theorem validate_mem (G : RGraph) (s r : Scope) : r ∈ (G.validate s).R ↔ r ∈ G.R ∨ r = s := by
  rw [validate_eq]
  split
  · rename_i h
    constructor
    · exact Or.inl
    · rintro (h' | rfl)
      · exact h'
      · exact h
  · simp

theorem validate_ch (G : RGraph) (s : Scope) : (G.validate s).ch = G.ch := by
  rw [validate_eq]
  split <;> rfl

theorem validate_id (G : RGraph) (s : Scope) {r : Scope} (hr : r ∈ G.R) : (G.validate s).id r = G.id r := by
  rw [validate_eq]
  split
  · rfl
  · unfold RGraph.id
    dsimp only
    rw [List.idxOf_append_of_mem hr]

theorem validate_inv {root : Scope} {G : RGraph} (h : RInv root G) {s : Scope} (hs : s ⊆ root) (hne : s.Nonempty) : RInv root (G.validate s) := by
  refine ⟨?_, ?_, ?_, ?_, ?_⟩
  · obtain ⟨l, hl⟩ := h.head
    rw [validate_eq]
    split
    · exact ⟨l, hl⟩
    · exact ⟨l ++ [s], by simp [hl]⟩
  · intro r hr
    rcases (validate_mem G s r).1 hr with hr | rfl
    · exact h.sub r hr
    · exact ⟨hs, hne⟩
  · intro r p hp
    rw [validate_ch] at hp
    obtain ⟨h1, h2, h3, h4⟩ := h.split r p hp
    exact ⟨(validate_mem G s _).2 (Or.inl h1), (validate_mem G s _).2 (Or.inl h2), (validate_mem G s _).2 (Or.inl h3), h4⟩
  · intro k
    have hP : (G.validate s).P = G.P := by
      rw [validate_eq]
      split <;> rfl
    rw [hP, h.keys k, validate_ch]
    constructor
    · rintro ⟨r, p, hp, rfl⟩
      obtain ⟨h1, h2, h3, _⟩ := h.split r p hp
      exact ⟨r, p, hp, by rw [validate_id _ _ h1, validate_id _ _ h2, validate_id _ _ h3]⟩
    · rintro ⟨r, p, hp, rfl⟩
      obtain ⟨h1, h2, h3, _⟩ := h.split r p hp
      exact ⟨r, p, hp, by rw [validate_id _ _ h1, validate_id _ _ h2, validate_id _ _ h3]⟩
  · intro r
    rw [validate_ch]
    exact h.nodup r

/-- The id tells a region, unless it is the root (which shares its id with the first region registered). -/
theorem id_inj {root : Scope} {G : RGraph} (h : RInv root G) {a b : Scope} (ha : a ∈ G.R) (hb : b ∈ G.R) (ha' : a ≠ root) (hb' : b ≠ root) (hab : G.id a = G.id b) : a = b := by
  obtain ⟨l, hl⟩ := h.head
  unfold RGraph.id at hab
  have pos : ∀ x, x ≠ root → 0 < G.R.idxOf x := by
    intro x hx
    rw [hl, List.idxOf_cons_ne _ (Ne.symm hx)]
    omega
  have h1 := pos a ha'
  have h2 := pos b hb'
  exact (List.idxOf_inj ha).1 (by omega)

/-- If the key of a partition is there, the partition is. -/
theorem exists_iff {root : Scope} {G : RGraph} (h : RInv root G) {s a b : Scope} (hs : s ∈ G.R) (ha : a ∈ G.R) (hb : b ∈ G.R) (hsp : ProperSplit s a b) :
    G.existsPartition s a b = true ↔ (a, b) ∈ G.ch s := by
  unfold RGraph.existsPartition
  rw [decide_eq_true_iff, h.keys]
  constructor
  · rintro ⟨s', p, hp, hk⟩
    simp only [Prod.mk.injEq] at hk
    obtain ⟨h1, h2, h3, h4⟩ := h.split s' p hp
    have notroot : ∀ {s a b : Scope}, s ∈ G.R → ProperSplit s a b → a ≠ root ∧ b ≠ root := by
      intro s a b hs hsp
      have hsub := (h.sub s hs).1
      obtain ⟨g1, g2, g3, g4⟩ := hsp.sub
      constructor
      · rintro rfl
        exact g3 (Finset.Subset.antisymm g1 hsub)
      · rintro rfl
        exact g4 (Finset.Subset.antisymm g2 hsub)
    obtain ⟨n1, n2⟩ := notroot hs hsp
    obtain ⟨n3, n4⟩ := notroot h1 h4
    have e1 := id_inj h ha h2 n1 n3 hk.2.1
    have e2 := id_inj h hb h3 n2 n4 hk.2.2
    have e3 : s = s' := by rw [← hsp.1, ← h4.1, e1, e2]
    rw [e1, e2, e3]
    exact hp
  · exact fun hp => ⟨s, (a, b), hp, rfl⟩

theorem link_ok {root : Scope} {G : RGraph} (h : RInv root G) {s a b : Scope} (hs : s ∈ G.R) (ha : a ∈ G.R) (hb : b ∈ G.R) (hsp : ProperSplit s a b) :
    RInv root (G.link s a b) ∧ (G.link s a b).R = G.R ∧ (a, b) ∈ (G.link s a b).ch s ∧ ∀ r, G.ch r ≠ [] → (G.link s a b).ch r ≠ [] := by
  unfold RGraph.link
  by_cases he : G.existsPartition s a b = true
  · rw [if_pos he]
    exact ⟨h, rfl, (exists_iff h hs ha hb hsp).1 he, fun r hr => hr⟩
  · rw [if_neg he]
    have hnot : (a, b) ∉ G.ch s := fun h' => he ((exists_iff h hs ha hb hsp).2 h')
    have hmem : ∀ r p, p ∈ Function.update G.ch s (G.ch s ++ [(a, b)]) r ↔ p ∈ G.ch r ∨ (r = s ∧ p = (a, b)) := by
      intro r p
      by_cases hr : r = s
      · subst hr
        rw [Function.update_self]
        simp
      · rw [Function.update_of_ne hr]
        simp [hr]
    refine ⟨⟨h.head, h.sub, ?_, ?_, ?_⟩, rfl, ?_, ?_⟩
    · intro r p hp
      rcases (hmem r p).1 hp with hp | ⟨rfl, rfl⟩
      · exact h.split r p hp
      · exact ⟨hs, ha, hb, hsp⟩
    · intro k
      show k ∈ (G.id s, G.id a, G.id b) :: G.P ↔ ∃ r, ∃ p ∈ Function.update G.ch s (G.ch s ++ [(a, b)]) r, k = (G.id r, G.id p.1, G.id p.2)
      rw [List.mem_cons, h.keys k]
      constructor
      · rintro (rfl | ⟨r, p, hp, hk⟩)
        · exact ⟨s, (a, b), (hmem _ _).2 (Or.inr ⟨rfl, rfl⟩), rfl⟩
        · exact ⟨r, p, (hmem _ _).2 (Or.inl hp), hk⟩
      · rintro ⟨r, p, hp, hk⟩
        rcases (hmem r p).1 hp with hp | ⟨rfl, rfl⟩
        · exact Or.inr ⟨r, p, hp, hk⟩
        · exact Or.inl hk
    · intro r
      dsimp only
      by_cases hr : r = s
      · subst hr
        rw [Function.update_self, List.nodup_append]
        refine ⟨h.nodup r, by simp, ?_⟩
        intro x hx y hy hxy
        rw [List.mem_singleton] at hy
        subst hxy
        exact hnot (hy ▸ hx)
      · rw [Function.update_of_ne hr]
        exact h.nodup r
    · exact (hmem s (a, b)).2 (Or.inr ⟨rfl, rfl⟩)
    · intro r hr
      dsimp only
      by_cases hrs : r = s
      · subst hrs
        rw [Function.update_self]
        simp
      · rw [Function.update_of_ne hrs]
        exact hr

theorem choose_ok {F : Type} [GoFloat F] {root : Scope} {G : RGraph} (h : RInv root G) {sn : Scope} (d : F) {p : Scope × Scope} (hp : ProperSplit sn p.1 p.2) :
    ProperSplit sn (chooseScopes G.R sn d p).1 (chooseScopes G.R sn d p).2 := by
  unfold chooseScopes
  split
  · rename_i r hr
    have h1 := List.find?_some hr
    have h2 := List.mem_of_find?_eq_some hr
    simp only [Bool.and_eq_true, Bool.not_eq_true'] at h1
    obtain ⟨⟨h3, h4⟩, _⟩ := h1
    have h3 := (Scope.subsetOf_iff _ _).1 h3
    have h4 : r ≠ sn := by
      intro h5
      rw [(Scope.equal_iff r sn).2 h5] at h4
      cases h4
    rw [Scope.minus_eq]
    refine ⟨Finset.union_sdiff_of_subset h3, Finset.disjoint_sdiff, (h.sub r h2).2, ?_⟩
    rw [Finset.sdiff_nonempty]
    intro h5
    exact h4 (Finset.Subset.antisymm h3 h5)
  · exact hp

/-- One call of `expandRegionGraph`, if clustering the variables splits every scope in two. -/
theorem expand_ok {F : Type} [GoFloat F] (E : DEnv F) (d : F) (C : List (Int × List Int)) (root : Scope)
    (hC : ∀ sn, sn ⊆ root → 1 < sn.card → ∀ t, ∃ p, partitionScope E t sn C = some p ∧ ProperSplit sn p.1 p.2) :
    ∀ (fuel : Nat) (sn : Scope) (x : RGraph × Nat) (pend : Scope → Prop), sn.card < fuel → RInv root x.1 → sn ∈ x.1.R → 1 < sn.card → Expanded x.1 (fun s => pend s ∨ s = sn) →
      ∃ x', expandRegionGraph E d C fuel sn x = some x' ∧ RInv root x'.1 ∧ (∀ s ∈ x.1.R, s ∈ x'.1.R) ∧ Expanded x'.1 pend := by
  intro fuel
  induction fuel with
  | zero => intro sn x pend h; omega
  | succ fuel ih =>
    intro sn x pend hf hx hsn hcard hexp
    obtain ⟨p, hp, hsp⟩ := hC sn (hx.sub sn hsn).1 hcard x.2
    unfold expandRegionGraph
    rw [hp, Option.bind_some]
    dsimp only
    have hs := choose_ok hx d hsp
    generalize chooseScopes x.1.R sn d p = s at hs ⊢
    obtain ⟨s1, s2⟩ := s
    dsimp only at hs ⊢
    have hsub := hs.sub
    have hlt := hs.card_lt
    have hroot := (hx.sub sn hsn).1
    have hv1 := validate_inv hx (s := s1) (hsub.1.trans hroot) hs.2.2.1
    have hv2 := validate_inv hv1 (s := s2) (hsub.2.1.trans hroot) hs.2.2.2
    have hmem : ∀ r, r ∈ ((x.1.validate s1).validate s2).R ↔ (r ∈ x.1.R ∨ r = s1) ∨ r = s2 := by
      intro r
      rw [validate_mem, validate_mem]
    obtain ⟨hl1, hl2, hl3, hl4⟩ := link_ok hv2 (s := sn) (a := s1) (b := s2) ((hmem _).2 (Or.inl (Or.inl hsn))) ((hmem _).2 (Or.inl (Or.inr rfl)))
      ((hmem _).2 (Or.inr rfl)) hs
    generalize ((x.1.validate s1).validate s2).link sn s1 s2 = G at hl1 hl2 hl3 hl4 ⊢
    have hGmem : ∀ r, r ∈ G.R ↔ (r ∈ x.1.R ∨ r = s1) ∨ r = s2 := by
      intro r
      rw [hl2, hmem]
    have hGexp : Expanded G (fun s => (pend s ∨ (s = s2 ∧ s2 ∉ x.1.R ∧ 1 < s2.card)) ∨ (s = s1 ∧ s1 ∉ x.1.R ∧ 1 < s1.card)) := by
      intro r hr hrc hch
      by_cases hold : r ∈ x.1.R
      · have hch0 : x.1.ch r = [] := by
          by_contra h0
          have h0' : ((x.1.validate s1).validate s2).ch r ≠ [] := by rw [validate_ch, validate_ch]; exact h0
          exact hl4 r h0' hch
        rcases hexp r hold hrc hch0 with h1 | rfl
        · exact Or.inl (Or.inl h1)
        · rw [hch] at hl3
          cases hl3
      · rcases (hGmem r).1 hr with (h1 | rfl) | rfl
        · exact absurd h1 hold
        · exact Or.inr ⟨rfl, hold, hrc⟩
        · exact Or.inl (Or.inr ⟨rfl, hold, hrc⟩)
    have hcond : ∀ s : Scope, (!scopesContain x.1.R s && decide (s.card > 1)) = true ↔ s ∉ x.1.R ∧ 1 < s.card := by
      intro s
      rw [Bool.and_eq_true, Bool.not_eq_true', decide_eq_true_iff, ← Bool.not_eq_true]
      unfold scopesContain
      rw [any_equal]
    -- the first side
    have h1 : ∃ x1, (if (!scopesContain x.1.R s1 && decide (s1.card > 1)) = true then expandRegionGraph E d C fuel s1 (G, x.2 + 1) else some (G, x.2 + 1)) = some x1 ∧
        RInv root x1.1 ∧ (∀ s ∈ G.R, s ∈ x1.1.R) ∧ Expanded x1.1 (fun s => pend s ∨ (s = s2 ∧ s2 ∉ x.1.R ∧ 1 < s2.card)) := by
      by_cases hc : (!scopesContain x.1.R s1 && decide (s1.card > 1)) = true
      · rw [if_pos hc]
        obtain ⟨hc1, hc2⟩ := (hcond s1).1 hc
        refine ih s1 (G, x.2 + 1) _ (by omega) hl1 ((hGmem s1).2 (Or.inl (Or.inr rfl))) hc2 ?_
        intro r hr hrc hch
        rcases hGexp r hr hrc hch with h | h
        · exact Or.inl h
        · exact Or.inr h.1
      · rw [if_neg hc]
        refine ⟨_, rfl, hl1, fun s hs => hs, ?_⟩
        intro r hr hrc hch
        rcases hGexp r hr hrc hch with h | h
        · exact h
        · exact absurd ((hcond s1).2 h.2) hc
    obtain ⟨x1, e1, i1, m1, d1⟩ := h1
    rw [e1, Option.bind_some]
    have hin1 : ∀ s ∈ x.1.R, s ∈ x1.1.R := fun s hs => m1 s ((hGmem s).2 (Or.inl (Or.inl hs)))
    by_cases hc : (!scopesContain x.1.R s2 && decide (s2.card > 1)) = true
    · rw [if_pos hc]
      obtain ⟨hc1, hc2⟩ := (hcond s2).1 hc
      obtain ⟨x2, e2, i2, m2, d2⟩ := ih s2 x1 pend (by omega) i1 (m1 _ ((hGmem s2).2 (Or.inr rfl))) hc2 (by
        intro r hr hrc hch
        rcases d1 r hr hrc hch with h | h
        · exact Or.inl h
        · exact Or.inr h.1)
      exact ⟨x2, e2, i2, fun s hs => m2 s (hin1 s hs), d2⟩
    · rw [if_neg hc]
      refine ⟨x1, rfl, i1, hin1, ?_⟩
      intro r hr hrc hch
      rcases d1 r hr hrc hch with h | h
      · exact h
      · exact absurd ((hcond s2).2 h.2) hc

/-- `expandRegionGraph` from the root, once for every cluster. -/
theorem expand_all {F : Type} [GoFloat F] (E : DEnv F) (d : F) (root : Scope) (hcard : 1 < root.card) : ∀ (Cs : List (List (Int × List Int))) (x : RGraph × Nat) (pend : Scope → Prop),
    (∀ C ∈ Cs, ∀ sn, sn ⊆ root → 1 < sn.card → ∀ t, ∃ p, partitionScope E t sn C = some p ∧ ProperSplit sn p.1 p.2) →
    RInv root x.1 → root ∈ x.1.R → Expanded x.1 (fun s => pend s ∨ s = root) →
    ∃ x', Cs.foldlM (fun x P => expandRegionGraph E d P (root.card + 1) root x) x = some x' ∧ RInv root x'.1 ∧ (Cs ≠ [] → Expanded x'.1 pend) := by
  intro Cs
  induction Cs with
  | nil =>
    intro x pend _ hx _ _
    exact ⟨x, rfl, hx, fun h => absurd rfl h⟩
  | cons C Cs ih =>
    intro x pend hC hx hr hexp
    obtain ⟨x1, e1, i1, m1, d1⟩ := expand_ok E d C root (hC C List.mem_cons_self) (root.card + 1) root x pend (by omega) hx hr hcard hexp
    obtain ⟨x2, e2, i2, d2⟩ := ih x1 pend (fun C hC' => hC C (List.mem_cons_of_mem _ hC')) i1 (m1 _ hr) (fun r hr hrc hch => Or.inl (d1 r hr hrc hch))
    refine ⟨x2, ?_, i2, fun _ => ?_⟩
    · rw [List.foldlM_cons, e1]
      exact e2
    · cases Cs with
      | nil =>
        cases e2
        exact d1
      | cons C' Cs => exact d2 (by simp)

/-! ### Clustering the variables -/

theorem placeVar_fold (V : Nat → Int) : ∀ (l : List (Int × Nat)) (s : Scope × Scope), (∀ x ∈ l, x.1 = 0 ∨ x.1 = 1) → ∃ s', l.foldlM (placeVar V) s = some s' ∧
    (∀ v, v ∈ s'.1 ↔ v ∈ s.1 ∨ ∃ x ∈ l, x.1 = 0 ∧ V x.2 = v) ∧ ∀ v, v ∈ s'.2 ↔ v ∈ s.2 ∨ ∃ x ∈ l, x.1 = 1 ∧ V x.2 = v := by
  intro l
  induction l with
  | nil => intro s _; exact ⟨s, rfl, by simp, by simp⟩
  | cons x l ih =>
    intro s hl
    rcases hl x List.mem_cons_self with h0 | h1
    · obtain ⟨s', e, h2, h3⟩ := ih (insert (V x.2) s.1, s.2) (fun y hy => hl y (List.mem_cons_of_mem _ hy))
      refine ⟨s', ?_, ?_, ?_⟩
      · rw [List.foldlM_cons]
        unfold placeVar
        rw [if_pos h0]
        exact e
      · intro v
        rw [h2, Finset.mem_insert]
        simp only [List.mem_cons, exists_eq_or_imp, h0, true_and]
        constructor
        · rintro ((h | h) | h)
          · exact Or.inr (Or.inl h.symm)
          · exact Or.inl h
          · exact Or.inr (Or.inr h)
        · rintro (h | h | h)
          · exact Or.inl (Or.inr h)
          · exact Or.inl (Or.inl h.symm)
          · exact Or.inr h
      · intro v
        rw [h3]
        simp only [List.mem_cons, exists_eq_or_imp, h0, show ¬ (0 : Int) = 1 by omega, false_and, false_or]
    · obtain ⟨s', e, h2, h3⟩ := ih (s.1, insert (V x.2) s.2) (fun y hy => hl y (List.mem_cons_of_mem _ hy))
      refine ⟨s', ?_, ?_, ?_⟩
      · rw [List.foldlM_cons]
        unfold placeVar
        rw [if_neg (by omega), if_pos h1]
        exact e
      · intro v
        rw [h2]
        simp only [List.mem_cons, exists_eq_or_imp, h1, show ¬ (1 : Int) = 0 by omega, false_and, false_or]
      · intro v
        rw [h3, Finset.mem_insert]
        simp only [List.mem_cons, exists_eq_or_imp, h1, true_and]
        constructor
        · rintro ((h | h) | h)
          · exact Or.inr (Or.inl h.symm)
          · exact Or.inl h
          · exact Or.inr (Or.inr h)
        · rintro (h | h | h)
          · exact Or.inl (Or.inr h)
          · exact Or.inl (Or.inl h.symm)
          · exact Or.inr h

theorem partitionScope_ok {F : Type} [GoFloat F] (E : DEnv F) {C : List (Int × List Int)} {root : Scope}
    (hkm : ∀ t M, 2 ≤ M.length → ∃ G, E.km t M = some G ∧ IsClustering 2 M.length G) (horder : ∀ t C, (E.order t C).Perm C)
    (hnd : (C.map (·.1)).Nodup) (hall : ∀ v ∈ root, v ∈ C.map (·.1)) {sn : Scope} (hsn : sn ⊆ root) (hcard : 1 < sn.card) (t : Nat) :
    ∃ p, partitionScope E t sn C = some p ∧ ProperSplit sn p.1 p.2 := by
  unfold partitionScope
  have hperm := horder t C
  generalize E.order t C = C' at hperm ⊢
  have hnd' : (C'.map (·.1)).Nodup := (hperm.map _).nodup_iff.2 hnd
  have hall' : ∀ v ∈ root, v ∈ C'.map (·.1) := fun v hv => (hperm.map _).mem_iff.2 (hall v hv)
  unfold clusterToMatrix
  dsimp only
  generalize hrows : (C'.filter fun x => x.1 ∈ sn) = rows
  have hrnd : (rows.map (·.1)).Nodup := by
    rw [← hrows]
    exact hnd'.sublist (List.Sublist.map _ List.filter_sublist)
  have hrmem : ∀ v, v ∈ rows.map (·.1) ↔ v ∈ sn := by
    intro v
    rw [← hrows, List.mem_map]
    constructor
    · rintro ⟨x, hx, rfl⟩
      simpa using (List.mem_filter.1 hx).2
    · intro hv
      obtain ⟨x, hx, rfl⟩ := List.mem_map.1 (hall' v (hsn hv))
      exact ⟨x, List.mem_filter.2 ⟨hx, by simpa using hv⟩, rfl⟩
  have hset : (rows.map (·.1)).toFinset = sn := by
    ext v
    rw [List.mem_toFinset, hrmem]
  have hlen : rows.length = sn.card := by
    rw [← hset, List.toFinset_card_of_nodup hrnd, List.length_map]
  rw [hlen, Nat.sub_self, List.replicate_zero, List.append_nil]
  obtain ⟨G, hG, hGl, hGr, hGu⟩ := hkm t (rows.map fun x => x.2.map (ofInt : Int → F)) (by rw [List.length_map]; omega)
  rw [List.length_map] at hGl
  rw [hG, Option.bind_some]
  have hV : ∀ i < rows.length, ((rows[i]?.map (·.1)).getD 0) = (rows.map (·.1))[i]?.getD 0 := by
    intro i hi
    rw [List.getElem?_map]
  obtain ⟨s, hs, h1, h2⟩ := placeVar_fold (fun i => (rows[i]?.map (·.1)).getD 0) G.zipIdx (∅, ∅) (by
    intro x hx
    have : x.1 ∈ G := List.fst_mem_of_mem_zipIdx hx
    have := hGr _ this
    omega)
  refine ⟨s, hs, ?_⟩
  have hidx : ∀ x ∈ G.zipIdx, x.2 < rows.length ∧ G[x.2]? = some x.1 := by
    intro x hx
    have := List.mem_zipIdx_iff_getElem?.1 hx
    have hlt : x.2 < G.length := by
      by_contra h
      rw [List.getElem?_eq_none (by omega)] at this
      cases this
    exact ⟨by omega, this⟩
  have hVin : ∀ i < rows.length, ((rows[i]?.map (·.1)).getD 0) ∈ sn := by
    intro i hi
    rw [List.getElem?_eq_getElem hi, Option.map_some, Option.getD_some, ← hrmem]
    exact List.mem_map.2 ⟨_, List.getElem_mem hi, rfl⟩
  have hVinj : ∀ i < rows.length, ∀ j < rows.length, ((rows[i]?.map (·.1)).getD 0) = ((rows[j]?.map (·.1)).getD 0) → i = j := by
    intro i hi j hj h
    rw [List.getElem?_eq_getElem hi, List.getElem?_eq_getElem hj] at h
    simp only [Option.map_some, Option.getD_some] at h
    refine (List.Nodup.getElem_inj_iff hrnd (hi := by rw [List.length_map]; exact hi) (hj := by rw [List.length_map]; exact hj)).1 ?_
    rw [List.getElem_map, List.getElem_map]
    exact h
  have huse : ∀ a : Nat, a < 2 → ∃ x ∈ G.zipIdx, x.1 = (a : Int) := by
    intro a ha
    obtain ⟨i, hi, hia⟩ := List.mem_iff_getElem.1 (hGu a ha)
    exact ⟨((a : Int), i), List.mem_zipIdx_iff_getElem?.2 (by rw [List.getElem?_eq_getElem hi, hia]), rfl⟩
  refine ⟨?_, ?_, ?_, ?_⟩
  · ext v
    rw [Finset.mem_union, h1, h2]
    simp only [Finset.notMem_empty, false_or]
    constructor
    · rintro (⟨x, hx, _, rfl⟩ | ⟨x, hx, _, rfl⟩) <;> exact hVin _ (hidx x hx).1
    · intro hv
      obtain ⟨y, hy, hyv⟩ := List.mem_map.1 ((hrmem v).2 hv)
      obtain ⟨i, hi, hiy⟩ := List.mem_iff_getElem.1 hy
      have hiG : i < G.length := by omega
      have hx : (G[i], i) ∈ G.zipIdx := List.mem_zipIdx_iff_getElem?.2 (List.getElem?_eq_getElem hiG)
      have hVi : ((rows[i]?.map (·.1)).getD 0) = v := by
        rw [List.getElem?_eq_getElem hi, Option.map_some, Option.getD_some, hiy, hyv]
      have := hGr _ (List.getElem_mem hiG)
      rcases (show G[i] = 0 ∨ G[i] = 1 by omega) with h | h
      · exact Or.inl ⟨_, hx, h, hVi⟩
      · exact Or.inr ⟨_, hx, h, hVi⟩
  · rw [Finset.disjoint_left]
    intro v hv1 hv2
    rw [h1] at hv1
    rw [h2] at hv2
    simp only [Finset.notMem_empty, false_or] at hv1 hv2
    obtain ⟨x, hx, hx0, rfl⟩ := hv1
    obtain ⟨y, hy, hy1, hxy⟩ := hv2
    have := hVinj _ (hidx y hy).1 _ (hidx x hx).1 hxy
    have h3 := (hidx x hx).2
    have h4 := (hidx y hy).2
    rw [this, h3] at h4
    have h5 := Option.some.inj h4
    omega
  · obtain ⟨x, hx, h0⟩ := huse 0 (by omega)
    exact ⟨_, (h1 _).2 (Or.inr ⟨x, hx, by simpa using h0, rfl⟩)⟩
  · obtain ⟨x, hx, h0⟩ := huse 1 (by omega)
    exact ⟨_, (h2 _).2 (Or.inr ⟨x, hx, by simpa using h0, rfl⟩)⟩

end Gospn
