import Verif.Model.Search
import Verif.Spec.Search
import Verif.Proofs.Topo
/- Helper lemmas for worklist loops. -/
set_option linter.unusedSectionVars false
namespace Gospn
open Spec
variable {ι : Type} [DecidableEq ι]

theorem Coll.mem_give (C : Coll ι) (c x : ι) : x ∈ (C.give c).items ↔ x = c ∨ x ∈ C.items := by
  unfold Coll.give
  split <;> simp [or_comm]

theorem Coll.nodup_give {C : Coll ι} {c : ι} (h : C.items.Nodup) (hc : c ∉ C.items) : (C.give c).items.Nodup := by
  unfold Coll.give
  split
  · simp [h, hc]
  · simp only [List.nodup_append, h, List.nodup_cons, List.not_mem_nil, not_false_eq_true, List.nodup_nil, and_self, true_and,
      List.mem_cons, or_false, forall_eq]
    exact fun a ha => fun e => hc (e ▸ ha)

theorem giveNew_nil (C : Coll ι) (V : Finset ι) : giveNew [] C V = (C, V) := rfl

theorem giveNew_cons (c : ι) (cs : List ι) (C : Coll ι) (V : Finset ι) :
    giveNew (c :: cs) C V = if c ∈ V then giveNew cs C V else giveNew cs (C.give c) (insert c V) := by
  unfold giveNew
  rw [List.foldl_cons]
  by_cases h : c ∈ V <;> simp [h]

theorem giveNew_spec (cs : List ι) : ∀ (C : Coll ι) (V : Finset ι), C.items.Nodup → (∀ x ∈ C.items, x ∈ V) →
    (giveNew cs C V).1.items.Nodup ∧ (giveNew cs C V).2 = V ∪ cs.toFinset ∧
    (∀ x, x ∈ (giveNew cs C V).1.items ↔ x ∈ C.items ∨ (x ∈ cs ∧ x ∉ V)) ∧ (giveNew cs C V).1.isStack = C.isStack := by
  induction cs with
  | nil => intro C V h1 h2; simp [giveNew_nil, h1]
  | cons c cs ih =>
    intro C V h1 h2
    rw [giveNew_cons]
    by_cases hc : c ∈ V
    · rw [if_pos hc]
      obtain ⟨a, b, d, e⟩ := ih C V h1 h2
      refine ⟨a, ?_, ?_, e⟩
      · rw [b]; ext x; simp; rintro rfl; exact Or.inl hc
      · intro x; rw [d]
        constructor
        · rintro (h | ⟨h, h'⟩)
          · exact Or.inl h
          · exact Or.inr ⟨by simp [h], h'⟩
        · rintro (h | ⟨h, h'⟩)
          · exact Or.inl h
          · rcases List.mem_cons.1 h with rfl | h
            · exact absurd hc h'
            · exact Or.inr ⟨h, h'⟩
    · rw [if_neg hc]
      have hcC : c ∉ C.items := fun h => hc (h2 c h)
      have hst : (C.give c).isStack = C.isStack := rfl
      obtain ⟨a, b, d, e⟩ := ih (C.give c) (insert c V) (Coll.nodup_give h1 hcC) (by
        intro x hx; rcases (Coll.mem_give C c x).1 hx with rfl | hx
        · simp
        · simp [h2 x hx])
      refine ⟨a, ?_, ?_, by rw [e, hst]⟩
      · rw [b]; ext x; simp
      · intro x; rw [d, Coll.mem_give]
        by_cases hxc : x = c
        · subst hxc; simp [hc]
        · simp [hxc]

/-! ### Static candidates: the order in which nodes are taken -/

/-- The nodes taken by a worklist loop whose candidates do not depend on the state. -/
def ordLoop (cand : ι → List ι) : Nat → Coll ι → Finset ι → List ι
  | 0, _, _ => []
  | fuel + 1, C, V =>
    match C.items with
    | [] => []
    | s :: rest =>
      let r := giveNew (cand s) { C with items := rest } V
      s :: ordLoop cand fuel r.1 r.2

theorem workLoop_static {σ : Type} (act : σ → ι → Option (σ × Option (List ι))) (g : σ → ι → Option σ) (cand : ι → List ι)
    (h : ∀ x u, act x u = (g x u).map (fun x' => (x', some (cand u)))) :
    ∀ (fuel : Nat) (C : Coll ι) (V : Finset ι) (x : σ),
      workLoop act fuel C V x = (ordLoop cand fuel C V).foldlM g x := by
  intro fuel
  induction fuel with
  | zero => intro C V x; rfl
  | succ fuel ih =>
    intro C V x
    rw [workLoop, ordLoop]
    cases hC : C.items with
    | nil => simp
    | cons s rest =>
      simp only [h, List.foldlM_cons]
      cases hg : g x s with
      | none => simp
      | some x' => simp [ih]

/-- Invariant of the loop in terms of the work still to be done. -/
theorem ordLoop_spec [Fintype ι] (cand : ι → List ι) : ∀ (fuel : Nat) (C : Coll ι) (V : Finset ι),
    C.items.Nodup → (∀ x ∈ C.items, x ∈ V) → (Vᶜ).card + C.items.length ≤ fuel →
    (ordLoop cand fuel C V).Nodup ∧
    (∀ x, x ∈ ordLoop cand fuel C V → x ∈ C.items ∨ x ∉ V) ∧
    (∀ x ∈ C.items, x ∈ ordLoop cand fuel C V) ∧
    (∀ x ∈ ordLoop cand fuel C V, ∀ c ∈ cand x, c ∈ V ∨ c ∈ ordLoop cand fuel C V) ∧
    (∀ x ∈ ordLoop cand fuel C V, ∃ r ∈ C.items, Reach cand r x) := by
  intro fuel
  induction fuel with
  | zero =>
    intro C V h1 h2 hf
    have : C.items = [] := List.length_eq_zero_iff.1 (by omega)
    simp [ordLoop, this]
  | succ fuel ih =>
    intro C V h1 h2 hf
    rw [ordLoop]
    cases hC : C.items with
    | nil => simp
    | cons s rest =>
      rw [hC] at h1 h2
      rw [List.nodup_cons] at h1
      obtain ⟨a, b, d, e⟩ := giveNew_spec (cand s) { C with items := rest } V h1.2 (fun x hx => h2 x (by simp [hx]))
      simp only at d
      generalize hr : giveNew (cand s) { C with items := rest } V = r at a b d e
      have hmem : ∀ x ∈ r.1.items, x ∈ r.2 := by
        intro x hx
        rw [b]
        rcases (d x).1 hx with h | h
        · simp [h2 x (by simp [h])]
        · simp [h.1]
      have hfuel : (r.2ᶜ).card + r.1.items.length ≤ fuel := by
        -- the new items are rest plus new nodes
        have hperm : r.1.items.toFinset = rest.toFinset ∪ ((cand s).toFinset \ V) := by
          ext x; simp [d x]
        have hlen : r.1.items.length = r.1.items.toFinset.card := (List.toFinset_card_of_nodup a).symm
        have h3 : (rest.toFinset ∪ ((cand s).toFinset \ V)).card ≤ rest.length + ((cand s).toFinset \ V).card :=
          (Finset.card_union_le _ _).trans (by have := List.toFinset_card_le rest; omega)
        have h4 : (r.2ᶜ).card + ((cand s).toFinset \ V).card = (Vᶜ).card := by
          rw [b, ← Finset.card_union_of_disjoint]
          · congr 1; ext x; simp; tauto
          · rw [Finset.disjoint_left]; intro x; simp; tauto
        rw [hC] at hf
        simp only [List.length_cons] at hf
        rw [hlen, hperm]; omega
      obtain ⟨i1, i2, i3, i4, i5⟩ := ih r.1 r.2 a hmem hfuel
      simp only [hr]
      have hsr : s ∉ ordLoop cand fuel r.1 r.2 := by
        intro hs
        have hsV : s ∈ V := h2 s (by simp)
        rcases i2 s hs with h | h
        · rcases (d s).1 h with h | h
          · exact h1.1 h
          · exact h.2 hsV
        · exact h (by rw [b]; simp [hsV])
      refine ⟨List.nodup_cons.2 ⟨hsr, i1⟩, ?_, ?_, ?_, ?_⟩
      · intro x hx
        rcases List.mem_cons.1 hx with rfl | hx
        · simp
        · rcases i2 x hx with h | h
          · rcases (d x).1 h with h | h
            · simp [h]
            · exact Or.inr h.2
          · rw [b] at h; simp at h; exact Or.inr h.1
      · intro x hx
        rcases List.mem_cons.1 hx with rfl | hx
        · simp
        · exact List.mem_cons_of_mem _ (i3 x ((d x).2 (Or.inl hx)))
      · intro x hx c hc
        have key : c ∈ r.2 → c ∈ V ∨ c ∈ s :: ordLoop cand fuel r.1 r.2 := by
          intro h
          by_cases hcV : c ∈ V
          · exact Or.inl hcV
          · rw [b] at h
            have : c ∈ cand s := by simpa [hcV] using h
            exact Or.inr (List.mem_cons_of_mem _ (i3 c ((d c).2 (Or.inr ⟨this, hcV⟩))))
        rcases List.mem_cons.1 hx with rfl | hx
        · apply key; rw [b]; simp [hc]
        · rcases i4 x hx c hc with h | h
          · exact key h
          · exact Or.inr (List.mem_cons_of_mem _ h)
      · intro x hx
        rcases List.mem_cons.1 hx with rfl | hx
        · exact ⟨x, by simp, Relation.ReflTransGen.refl⟩
        · obtain ⟨q, hq, hqx⟩ := i5 x hx
          rcases (d q).1 hq with h | h
          · exact ⟨q, by simp [h], hqx⟩
          · exact ⟨s, by simp, Relation.ReflTransGen.head h.1 hqx⟩

/-- The order in which a worklist loop with static candidates takes the nodes. -/
def workOrder [Fintype ι] (cand : ι → List ι) (isStack : Bool) (G : ι) : List ι :=
  ordLoop cand (Fintype.card ι) ⟨isStack, [G]⟩ {G}

theorem workOrder_lists [Fintype ι] (cand : ι → List ι) (isStack : Bool) (G : ι) :
    ListsReachable cand G (workOrder cand isStack G) := by
  have hf : (({G} : Finset ι)ᶜ).card + [G].length ≤ Fintype.card ι := by
    rw [Finset.card_compl]; simp
    have : 0 < Fintype.card ι := Fintype.card_pos_iff.2 ⟨G⟩
    omega
  obtain ⟨h1, h2, h3, h4, h5⟩ := ordLoop_spec cand (Fintype.card ι) ⟨isStack, [G]⟩ {G} (by simp) (by simp) hf
  refine ⟨h1, fun x => ⟨fun hx => ?_, fun hx => ?_⟩⟩
  · obtain ⟨r, hr, h⟩ := h5 x hx
    simp at hr; exact hr ▸ h
  · have hG := h3 G (by simp)
    induction hx with
    | refl => exact hG
    | tail _ hc ih =>
      rcases h4 _ ih _ hc with h | h
      · simp at h; rw [h]; exact hG
      · exact h

theorem work_static [Fintype ι] {σ : Type} (act : σ → ι → Option (σ × Option (List ι))) (g : σ → ι → Option σ) (cand : ι → List ι)
    (h : ∀ x u, act x u = (g x u).map (fun x' => (x', some (cand u)))) (isStack : Bool) (G : ι) (x : σ) :
    work act isStack G x = (workOrder cand isStack G).foldlM g x :=
  workLoop_static act g cand h _ _ _ _

theorem foldlM_some {σ α : Type} (g : σ → α → σ) (l : List α) (x : σ) :
    l.foldlM (fun x u => some (g x u)) x = some (l.foldl g x) := by
  induction l generalizing x with
  | nil => rfl
  | cons a l ih => simp [ih]

theorem work_static_pure [Fintype ι] {σ : Type} (act : σ → ι → Option (σ × Option (List ι))) (g : σ → ι → σ) (cand : ι → List ι)
    (h : ∀ x u, act x u = some (g x u, some (cand u))) (isStack : Bool) (G : ι) (x : σ) :
    work act isStack G x = some ((workOrder cand isStack G).foldl g x) := by
  rw [work_static act (fun x u => some (g x u)) cand (by simp [h]), foldlM_some]

theorem workOrder_head [Fintype ι] (cand : ι → List ι) (isStack : Bool) (G : ι) :
    ∃ l, workOrder cand isStack G = G :: l := by
  unfold workOrder
  have : Fintype.card ι = (Fintype.card ι - 1) + 1 := by
    have : 0 < Fintype.card ι := Fintype.card_pos_iff.2 ⟨G⟩
    omega
  rw [this, ordLoop]
  exact ⟨_, rfl⟩

/-! ### Breadth-first order follows levels -/

theorem giveNew_queue_items (cs : List ι) : ∀ (l : List ι) (V : Finset ι),
    ∃ m, (giveNew cs ⟨false, l⟩ V).1 = ⟨false, l ++ m⟩ ∧ ∀ x ∈ m, x ∈ cs := by
  induction cs with
  | nil => intro l V; exact ⟨[], by simp [giveNew_nil]⟩
  | cons c cs ih =>
    intro l V
    rw [giveNew_cons]
    by_cases hc : c ∈ V
    · rw [if_pos hc]
      obtain ⟨m, h1, h2⟩ := ih l V
      exact ⟨m, h1, fun x hx => by simp [h2 x hx]⟩
    · rw [if_neg hc]
      obtain ⟨m, h1, h2⟩ := ih (l ++ [c]) (insert c V)
      refine ⟨c :: m, ?_, ?_⟩
      · show (giveNew cs (Coll.give ⟨false, l⟩ c) (insert c V)).1 = _
        simp only [Coll.give]
        simpa using h1
      · intro x hx
        rcases List.mem_cons.1 hx with rfl | hx
        · simp
        · simp [h2 x hx]

theorem ordLoop_levels [Fintype ι] (cand : ι → List ι) (level : ι → Nat) (P : ι → Prop)
    (hl : ∀ u, P u → ∀ c ∈ cand u, P c ∧ level c = level u + 1) :
    ∀ (fuel : Nat) (l : List ι) (V : Finset ι) (k : Nat), (∀ x ∈ l, P x) → (l.map level).Pairwise (· ≤ ·) →
      (∀ x ∈ l, k ≤ level x ∧ level x ≤ k + 1) →
      ((ordLoop cand fuel ⟨false, l⟩ V).map level).Pairwise (· ≤ ·) ∧ ∀ x ∈ ordLoop cand fuel ⟨false, l⟩ V, k ≤ level x := by
  intro fuel
  induction fuel with
  | zero => intro l V k _ _ _; simp [ordLoop]
  | succ fuel ih =>
    intro l V k hP hs hk
    rw [ordLoop]
    cases l with
    | nil => simp
    | cons s rest =>
      simp only
      obtain ⟨m, h1, h2⟩ := giveNew_queue_items (cand s) rest V
      have hsk := hk s (by simp)
      have hls := hl s (hP s (by simp))
      rw [List.map_cons, List.pairwise_cons] at hs
      have := ih (rest ++ m) (giveNew (cand s) ⟨false, rest⟩ V).2 (level s) (by
          intro x hx
          rcases List.mem_append.1 hx with hx | hx
          · exact hP x (by simp [hx])
          · exact (hls x (h2 x hx)).1) (by
          rw [List.map_append, List.pairwise_append]
          refine ⟨hs.2, ?_, ?_⟩
          · rw [List.pairwise_map]
            apply List.Pairwise.imp_of_mem (R := fun _ _ => True)
            · intro a b ha hb _
              rw [(hls a (h2 a ha)).2, (hls b (h2 b hb)).2]
            · exact List.pairwise_of_forall (fun _ _ => trivial)
          · intro a ha b hb
            obtain ⟨x, hx, rfl⟩ := List.mem_map.1 ha
            obtain ⟨y, hy, rfl⟩ := List.mem_map.1 hb
            rw [(hls y (h2 y hy)).2]
            have := hk x (by simp [hx])
            omega) (by
          intro x hx
          rcases List.mem_append.1 hx with hx | hx
          · have h1 := hs.1 (level x) (List.mem_map.2 ⟨x, hx, rfl⟩)
            have h2 := hk x (by simp [hx])
            omega
          · rw [(hls x (h2 x hx)).2]; omega)
      rw [h1]
      refine ⟨?_, ?_⟩
      · rw [List.map_cons, List.pairwise_cons]
        refine ⟨?_, this.1⟩
        intro a ha
        obtain ⟨x, hx, rfl⟩ := List.mem_map.1 ha
        exact this.2 x hx
      · intro x hx
        rcases List.mem_cons.1 hx with rfl | hx
        · exact hsk.1
        · have := this.2 x hx; omega

theorem workOrder_levels [Fintype ι] (cand : ι → List ι) (level : ι → Nat) (hl : ∀ u, ∀ c ∈ cand u, level c = level u + 1) (G : ι) :
    ((workOrder cand false G).map level).Pairwise (· ≤ ·) :=
  (ordLoop_levels cand level (fun _ => True) (fun u _ c hc => ⟨trivial, hl u c hc⟩) (Fintype.card ι) [G] {G} (level G) (by simp) (by simp) (by simp)).1

theorem workOrder_levels_reach [Fintype ι] (cand : ι → List ι) (level : ι → Nat) (G : ι)
    (hl : ∀ u, Reach cand G u → ∀ c ∈ cand u, level c = level u + 1) :
    ((workOrder cand false G).map level).Pairwise (· ≤ ·) :=
  (ordLoop_levels cand level (Reach cand G) (fun u hu c hc => ⟨Relation.ReflTransGen.tail hu hc, hl u hu c hc⟩) (Fintype.card ι) [G] {G} (level G)
    (by simp; exact Relation.ReflTransGen.refl) (by simp) (by simp)).1

theorem mem_giveNew {cs : List ι} : ∀ {C : Coll ι} {V : Finset ι} {x : ι}, x ∈ (giveNew cs C V).1.items → x ∈ C.items ∨ x ∈ cs := by
  induction cs with
  | nil => intro C V x h; exact Or.inl (by simpa [giveNew_nil] using h)
  | cons c cs ih =>
    intro C V x h
    rw [giveNew_cons] at h
    split at h
    · exact (ih h).imp_right (List.mem_cons_of_mem _)
    · rcases ih h with h | h
      · rcases (Coll.mem_give C c x).1 h with rfl | h
        · exact Or.inr (by simp)
        · exact Or.inl h
      · exact Or.inr (List.mem_cons_of_mem _ h)

theorem ordLoop_parent (cand : ι → List ι) : ∀ (fuel : Nat) (C : Coll ι) (V : Finset ι) (before : List ι) (x : ι) (after : List ι),
    ordLoop cand fuel C V = before ++ x :: after → x ∈ C.items ∨ ∃ u ∈ before, x ∈ cand u := by
  intro fuel
  induction fuel with
  | zero => intro C V b x a h; simp [ordLoop] at h
  | succ fuel ih =>
    intro C V b x a h
    rw [ordLoop] at h
    cases hC : C.items with
    | nil => simp [hC] at h
    | cons s rest =>
      simp only [hC] at h
      cases b with
      | nil => simp at h; simp [h.1]
      | cons b0 b =>
        simp only [List.cons_append, List.cons.injEq] at h
        obtain ⟨rfl, h⟩ := h
        rcases ih _ _ b x a h with h1 | ⟨u, hu, h1⟩
        · rcases mem_giveNew h1 with h1 | h1
          · simp only at h1; exact Or.inl (by simp [h1])
          · exact Or.inr ⟨s, by simp, h1⟩
        · exact Or.inr ⟨u, by simp [hu], h1⟩

/-- Every node taken after the first was given by a node taken before. -/
theorem workOrder_parent [Fintype ι] (cand : ι → List ι) (isStack : Bool) (G : ι) (before : List ι) (x : ι) (after : List ι)
    (h : workOrder cand isStack G = before ++ x :: after) : x = G ∨ ∃ u ∈ before, x ∈ cand u :=
  (ordLoop_parent cand _ _ _ before x after h).imp_left (by simp)

/-! ### Dynamic candidates -/

/-- `E` is a log of (node, candidates) of work that went on without panic or return, leading from state `x` to `x'`. -/
def ActsRun {σ : Type} (act : σ → ι → Option (σ × Option (List ι))) : σ → List (ι × List ι) → σ → Prop
  | x, [], x' => x' = x
  | x, (u, cs) :: E, x' => ∃ y, act x u = some (y, some cs) ∧ ActsRun act y E x'

theorem ActsRun.snoc {σ : Type} {act : σ → ι → Option (σ × Option (List ι))} {E : List (ι × List ι)} :
    ∀ {x y z : σ} {u : ι} {cs : List ι}, ActsRun act x E y → act y u = some (z, some cs) → ActsRun act x (E ++ [(u, cs)]) z := by
  induction E with
  | nil => intro x y z u cs h1 h2; simp only [ActsRun] at h1; subst h1; exact ⟨z, h2, rfl⟩
  | cons e E ih =>
    intro x y z u cs h1 h2
    obtain ⟨w, hw, hr⟩ := h1
    exact ⟨w, hw, ih hr h2⟩

/-- Reachable along logged edges. -/
def ReachLog (E : List (ι × List ι)) (G v : ι) : Prop :=
  Relation.ReflTransGen (fun a b => ∃ cs, (a, cs) ∈ E ∧ b ∈ cs) G v

structure WorkInv (E : List (ι × List ι)) (G : ι) (C : Coll ι) (V : Finset ι) : Prop where
  nodup : (E.map Prod.fst ++ C.items).Nodup
  vis : ∀ v, v ∈ V ↔ v ∈ E.map Prod.fst ∨ v ∈ C.items
  closed : ∀ u cs, (u, cs) ∈ E → ∀ c ∈ cs, c ∈ V
  reach : ∀ v ∈ V, ReachLog E G v
  root : G ∈ V

theorem ReachLog.mono {E E' : List (ι × List ι)} (h : ∀ e ∈ E, e ∈ E') {G v : ι} (hr : ReachLog E G v) : ReachLog E' G v := by
  induction hr with
  | refl => exact Relation.ReflTransGen.refl
  | tail _ hc ih => obtain ⟨cs, h1, h2⟩ := hc; exact Relation.ReflTransGen.tail ih ⟨cs, h _ h1, h2⟩

theorem WorkInv.step {E : List (ι × List ι)} {G : ι} {C : Coll ι} {V : Finset ι} (h : WorkInv E G C V) {s : ι} {rest cs : List ι}
    (hC : C.items = s :: rest) :
    WorkInv (E ++ [(s, cs)]) G (giveNew cs { C with items := rest } V).1 (giveNew cs { C with items := rest } V).2 := by
  have hnd := h.nodup
  rw [hC] at hnd
  have hnd2 := List.nodup_append.1 hnd
  have hsV : s ∈ V := (h.vis s).2 (Or.inr (by simp [hC]))
  have hrest : rest.Nodup := (List.nodup_cons.1 hnd2.2.1).2
  obtain ⟨a, b, d, _⟩ := giveNew_spec cs { C with items := rest } V hrest
    (fun x hx => (h.vis x).2 (Or.inr (by rw [hC]; exact List.mem_cons_of_mem _ hx)))
  simp only at d
  refine ⟨?_, ?_, ?_, ?_, ?_⟩
  · rw [List.map_append, List.nodup_append]
    refine ⟨?_, a, ?_⟩
    · rw [List.nodup_append]
      refine ⟨hnd2.1, by simp, ?_⟩
      intro x hx y hy
      simp at hy; subst hy
      exact hnd2.2.2 x hx _ (by simp)
    · intro x hx y hy hxy
      subst hxy
      have hxV : x ∈ V := by
        rcases List.mem_append.1 hx with hx | hx
        · exact (h.vis x).2 (Or.inl hx)
        · simp at hx; rw [hx]; exact hsV
      rcases (d x).1 hy with hy | hy
      · rcases List.mem_append.1 hx with hx | hx
        · exact hnd2.2.2 x hx x (by simp [hy]) rfl
        · simp at hx; subst hx
          exact (List.nodup_cons.1 hnd2.2.1).1 hy
      · exact hy.2 hxV
  · intro v
    rw [b, Finset.mem_union, List.mem_toFinset, h.vis v, hC, List.map_append, List.mem_append, d v]
    by_cases hv : v ∈ V
    · have := (h.vis v).1 hv
      rw [hC] at this
      simp only [List.mem_cons, List.map_cons, List.map_nil, List.not_mem_nil, or_false] at this ⊢
      tauto
    · have h1 : v ∉ List.map Prod.fst E := fun hh => hv ((h.vis v).2 (Or.inl hh))
      have h2 : ¬ (v = s ∨ v ∈ rest) := fun hh => hv ((h.vis v).2 (Or.inr (by rw [hC]; simpa using hh)))
      simp only [List.mem_cons, List.map_cons, List.map_nil, List.not_mem_nil, or_false] at h2 ⊢
      tauto
  · intro u cs' hu c hc
    rw [b, Finset.mem_union, List.mem_toFinset]
    rcases List.mem_append.1 hu with hu | hu
    · exact Or.inl (h.closed u cs' hu c hc)
    · simp at hu; right; rw [← hu.2]; exact hc
  · intro v hv
    rw [b, Finset.mem_union, List.mem_toFinset] at hv
    have mono : ∀ {w}, ReachLog E G w → ReachLog (E ++ [(s, cs)]) G w := fun hw => hw.mono (by simp +contextual)
    rcases hv with hv | hv
    · exact mono (h.reach v hv)
    · exact Relation.ReflTransGen.tail (mono (h.reach s hsV)) ⟨cs, by simp, hv⟩
  · rw [b]; simp [h.root]

/-- What a worklist loop does, for any work function: it either ends after having taken exactly the nodes reachable along the logged
edges, or it is left in the middle by a return or a panic. -/
theorem workLoop_dynamic [Fintype ι] {σ : Type} (act : σ → ι → Option (σ × Option (List ι))) (G : ι) (x0 : σ) :
    ∀ (fuel : Nat) (C : Coll ι) (V : Finset ι) (x : σ) (E : List (ι × List ι)),
      ActsRun act x0 E x → WorkInv E G C V → Fintype.card ι ≤ fuel + E.length →
      ∃ E' x', ActsRun act x0 E' x' ∧ (E'.map Prod.fst).Nodup ∧ (∀ v ∈ E'.map Prod.fst, ReachLog E' G v) ∧
        ((workLoop act fuel C V x = some x' ∧ ∀ v, v ∈ E'.map Prod.fst ↔ ReachLog E' G v) ∨
         (∃ u y, u ∉ E'.map Prod.fst ∧ ReachLog E' G u ∧ act x' u = some (y, none) ∧ workLoop act fuel C V x = some y) ∨
         (∃ u, u ∉ E'.map Prod.fst ∧ ReachLog E' G u ∧ act x' u = none ∧ workLoop act fuel C V x = none)) := by
  intro fuel
  induction fuel with
  | zero =>
    intro C V x E hr h hf
    have hitems : C.items = [] := by
      have h1 : (E.map Prod.fst ++ C.items).length ≤ Fintype.card ι := h.nodup.length_le_card
      simp at h1
      exact List.length_eq_zero_iff.1 (by omega)
    refine ⟨E, x, hr, (List.nodup_append.1 h.nodup).1, fun v hv => h.reach v ((h.vis v).2 (Or.inl hv)), Or.inl ⟨rfl, fun v => ?_⟩⟩
    have hv : ∀ v, v ∈ V ↔ v ∈ E.map Prod.fst := fun v => by rw [h.vis v, hitems]; simp
    constructor
    · exact fun hh => h.reach v ((hv v).2 hh)
    · intro hh
      induction hh with
      | refl => exact (hv G).1 h.root
      | tail _ hc _ => obtain ⟨cs, h1, h2⟩ := hc; exact (hv _).1 (h.closed _ _ h1 _ h2)
  | succ fuel ih =>
    intro C V x E hr h hf
    rw [workLoop]
    cases hC : C.items with
    | nil =>
      refine ⟨E, x, hr, (List.nodup_append.1 h.nodup).1, fun v hv => h.reach v ((h.vis v).2 (Or.inl hv)), Or.inl ⟨rfl, fun v => ?_⟩⟩
      have hv : ∀ v, v ∈ V ↔ v ∈ E.map Prod.fst := fun v => by rw [h.vis v, hC]; simp
      constructor
      · exact fun hh => h.reach v ((hv v).2 hh)
      · intro hh
        induction hh with
        | refl => exact (hv G).1 h.root
        | tail _ hc _ => obtain ⟨cs, h1, h2⟩ := hc; exact (hv _).1 (h.closed _ _ h1 _ h2)
    | cons s rest =>
      have hs1 : s ∉ E.map Prod.fst := by
        intro hh
        exact (List.nodup_append.1 h.nodup).2.2 s hh s (by simp [hC]) rfl
      have hs2 : ReachLog E G s := h.reach s ((h.vis s).2 (Or.inr (by simp [hC])))
      simp only
      cases ha : act x s with
      | none => exact ⟨E, x, hr, (List.nodup_append.1 h.nodup).1, fun v hv => h.reach v ((h.vis v).2 (Or.inl hv)), Or.inr (Or.inr ⟨s, hs1, hs2, ha, rfl⟩)⟩
      | some p =>
        obtain ⟨y, o⟩ := p
        cases o with
        | none => exact ⟨E, x, hr, (List.nodup_append.1 h.nodup).1, fun v hv => h.reach v ((h.vis v).2 (Or.inl hv)), Or.inr (Or.inl ⟨s, y, hs1, hs2, ha, rfl⟩)⟩
        | some cs =>
          exact ih _ _ _ _ (hr.snoc ha) (h.step hC) (by simp; omega)

theorem work_dynamic [Fintype ι] {σ : Type} (act : σ → ι → Option (σ × Option (List ι))) (isStack : Bool) (G : ι) (x : σ) :
    ∃ E x', ActsRun act x E x' ∧ (E.map Prod.fst).Nodup ∧ (∀ v ∈ E.map Prod.fst, ReachLog E G v) ∧
        ((work act isStack G x = some x' ∧ ∀ v, v ∈ E.map Prod.fst ↔ ReachLog E G v) ∨
         (∃ u y, u ∉ E.map Prod.fst ∧ ReachLog E G u ∧ act x' u = some (y, none) ∧ work act isStack G x = some y) ∨
         (∃ u, u ∉ E.map Prod.fst ∧ ReachLog E G u ∧ act x' u = none ∧ work act isStack G x = none)) :=
  workLoop_dynamic act G x (Fintype.card ι) ⟨isStack, [G]⟩ {G} x [] rfl
    ⟨by simp, by simp, by simp, by intro v hv; simp at hv; subst hv; exact Relation.ReflTransGen.refl, by simp⟩ (by simp)

end Gospn
