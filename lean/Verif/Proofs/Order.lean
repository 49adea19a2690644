import Verif.Proofs.Search
import Verif.Spec.Order
import Mathlib.Order.Lattice.Nat
/-
The order in which a worklist loop takes the nodes: by distance with a queue, depth first on trees with a stack.
-/
set_option linter.unusedSectionVars false
set_option linter.unusedSimpArgs false
namespace Gospn
open Spec
variable {ι : Type} [DecidableEq ι]

theorem giveNew_visited (cs : List ι) : ∀ (C : Coll ι) (V : Finset ι) (x : ι), x ∈ (giveNew cs C V).2 ↔ x ∈ V ∨ x ∈ cs := by
  induction cs with
  | nil => intro C V x; simp [giveNew_nil]
  | cons c cs ih =>
    intro C V x
    rw [giveNew_cons]
    by_cases hc : c ∈ V
    · rw [if_pos hc, ih]
      constructor
      · rintro (h | h) <;> simp [h]
      · rintro (h | h)
        · exact Or.inl h
        · rcases List.mem_cons.1 h with rfl | h
          · exact Or.inl hc
          · exact Or.inr h
    · rw [if_neg hc, ih]
      simp only [Finset.mem_insert, List.mem_cons]
      tauto

theorem giveNew_items (isStack : Bool) (cs : List ι) : ∀ (l : List ι) (V : Finset ι),
    ∃ m, (giveNew cs ⟨isStack, l⟩ V).1 = ⟨isStack, if isStack then m ++ l else l ++ m⟩ ∧ (∀ x ∈ m, x ∈ cs ∧ x ∉ V) ∧ ∀ x ∈ cs, x ∉ V → x ∈ m := by
  induction cs with
  | nil => intro l V; exact ⟨[], by simp [giveNew_nil]⟩
  | cons c cs ih =>
    intro l V
    rw [giveNew_cons]
    by_cases hc : c ∈ V
    · rw [if_pos hc]
      obtain ⟨m, h1, h2, h3⟩ := ih l V
      refine ⟨m, h1, fun x hx => ⟨by simp [(h2 x hx).1], (h2 x hx).2⟩, fun x hx hV => ?_⟩
      rcases List.mem_cons.1 hx with rfl | hx
      · exact absurd hc hV
      · exact h3 x hx hV
    · rw [if_neg hc]
      obtain ⟨m, h1, h2, h3⟩ := ih (if isStack then c :: l else l ++ [c]) (insert c V)
      refine ⟨if isStack then m ++ [c] else c :: m, ?_, ?_, ?_⟩
      · have : (⟨isStack, l⟩ : Coll ι).give c = ⟨isStack, if isStack then c :: l else l ++ [c]⟩ := by cases isStack <;> rfl
        rw [this, h1]
        cases isStack <;> simp
      · intro x hx
        have hx' : x = c ∨ x ∈ m := by cases isStack <;> simp at hx <;> tauto
        rcases hx' with rfl | hx'
        · exact ⟨by simp, hc⟩
        · have := h2 x hx'
          exact ⟨by simp [this.1], fun h => this.2 (by simp [h])⟩
      · intro x hx hV
        have : x = c ∨ x ∈ m := by
          by_cases hxc : x = c
          · exact Or.inl hxc
          · rcases List.mem_cons.1 hx with h | h
            · exact absurd h hxc
            · exact Or.inr (h3 x h (by simp [hxc, hV]))
        cases isStack <;> simp <;> tauto

theorem ordLoop_distance (cand : ι → List ι) (d : ι → Nat) (R : ι → Prop)
    (hstep : ∀ u, R u → ∀ c ∈ cand u, R c ∧ d c ≤ d u + 1) (hpar : ∀ v, R v → d v ≠ 0 → ∃ u, R u ∧ v ∈ cand u ∧ d u + 1 = d v) :
    ∀ (fuel : Nat) (l : List ι) (V : Finset ι), (∀ x ∈ l, R x) → l.Pairwise (fun a b => d a ≤ d b) →
      (∀ s rest, l = s :: rest → (∀ x ∈ l, d x ≤ d s + 1) ∧ ∀ v, R v → d v ≤ d s → v ∈ V) → (∀ u ∈ V, R u → u ∈ l ∨ ∀ c ∈ cand u, c ∈ V) →
      (ordLoop cand fuel ⟨false, l⟩ V).Pairwise (fun a b => d a ≤ d b) ∧ ∀ s rest, l = s :: rest → ∀ x ∈ ordLoop cand fuel ⟨false, l⟩ V, d s ≤ d x := by
  intro fuel
  induction fuel with
  | zero => intro l V _ _ _ _; simp [ordLoop]
  | succ fuel ih =>
    intro l V hR hs hk hV
    rw [ordLoop]
    cases l with
    | nil => simp
    | cons s rest =>
      simp only
      obtain ⟨m, h1, h2, h3⟩ := giveNew_items false (cand s) rest V
      simp only [Bool.false_eq_true, if_false] at h1
      obtain ⟨hk1, hk2⟩ := hk s rest rfl
      have hRs := hR s (by simp)
      rw [List.pairwise_cons] at hs
      have hm : ∀ x ∈ m, R x ∧ d x = d s + 1 := by
        intro x hx
        obtain ⟨hx1, hx2⟩ := h2 x hx
        obtain ⟨hRx, hle⟩ := hstep s hRs x hx1
        refine ⟨hRx, ?_⟩
        by_contra hne
        exact hx2 (hk2 x hRx (by omega))
      have hrest : ∀ x ∈ rest, d s ≤ d x ∧ d x ≤ d s + 1 := fun x hx => ⟨hs.1 x hx, hk1 x (by simp [hx])⟩
      have key := ih (rest ++ m) (giveNew (cand s) ⟨false, rest⟩ V).2
        (by
          intro x hx
          rcases List.mem_append.1 hx with hx | hx
          · exact hR x (by simp [hx])
          · exact (hm x hx).1)
        (by
          rw [List.pairwise_append]
          refine ⟨hs.2, ?_, fun a ha b hb => ?_⟩
          · apply List.Pairwise.imp_of_mem (R := fun _ _ => True)
            · intro a b ha hb _
              rw [(hm a ha).2, (hm b hb).2]
            · exact List.pairwise_of_forall (fun _ _ => trivial)
          · rw [(hm b hb).2]; exact (hrest a ha).2)
        (by
          intro h t hht
          have hmem : h ∈ rest ++ m := by rw [hht]; simp
          have hh : d s ≤ d h ∧ d h ≤ d s + 1 := by
            rcases List.mem_append.1 hmem with hx | hx
            · exact hrest h hx
            · have := (hm h hx).2; omega
          refine ⟨fun x hx => ?_, fun v hRv hv => ?_⟩
          · rcases List.mem_append.1 hx with hx | hx
            · have := (hrest x hx).2; omega
            · have := (hm x hx).2; omega
          · rw [giveNew_visited]
            by_cases hvs : d v ≤ d s
            · exact Or.inl (hk2 v hRv hvs)
            · obtain ⟨u, hRu, hvu, hdu⟩ := hpar v hRv (by omega)
              rcases hV u (hk2 u hRu (by omega)) hRu with hul | hul
              · rcases List.mem_cons.1 hul with rfl | hul
                · exact Or.inr hvu
                · exfalso
                  cases rest with
                  | nil => cases hul
                  | cons r0 rest =>
                    simp only [List.cons_append, List.cons.injEq] at hht
                    obtain ⟨rfl, _⟩ := hht
                    have hle : d r0 ≤ d u := by
                      rcases List.mem_cons.1 hul with rfl | hul
                      · exact le_rfl
                      · exact (List.pairwise_cons.1 hs.2).1 u hul
                    omega
              · exact Or.inl (hul v hvu))
        (by
          intro u hu hRu
          rw [giveNew_visited] at hu
          have hkids : (∀ c ∈ cand u, c ∈ V) → ∀ c ∈ cand u, c ∈ (giveNew (cand s) ⟨false, rest⟩ V).2 := fun h c hc => by
            rw [giveNew_visited]; exact Or.inl (h c hc)
          by_cases huV : u ∈ V
          · rcases hV u huV hRu with hul | hul
            · rcases List.mem_cons.1 hul with rfl | hul
              · exact Or.inr fun c hc => by rw [giveNew_visited]; exact Or.inr hc
              · exact Or.inl (by simp [hul])
            · exact Or.inr (hkids hul)
          · rcases hu with hu | hu
            · exact absurd hu huV
            · exact Or.inl (by simp [h3 u hu huV]))
      rw [h1]
      have hall : ∀ x ∈ ordLoop cand fuel ⟨false, rest ++ m⟩ (giveNew (cand s) ⟨false, rest⟩ V).2, d s ≤ d x := by
        intro x hx
        cases hl : rest ++ m with
        | nil =>
          rw [hl] at hx
          cases fuel <;> simp [ordLoop] at hx
        | cons h t =>
          have hmem : h ∈ rest ++ m := by rw [hl]; simp
          have hh : d s ≤ d h := by
            rcases List.mem_append.1 hmem with hy | hy
            · exact (hrest h hy).1
            · have := (hm h hy).2; omega
          exact hh.trans (key.2 h t hl x hx)
      refine ⟨List.pairwise_cons.2 ⟨hall, key.1⟩, ?_⟩
      intro s' rest' he x hx
      obtain ⟨rfl, rfl⟩ := List.cons.inj he
      rcases List.mem_cons.1 hx with rfl | hx
      · exact le_rfl
      · exact hall x hx

theorem workOrder_distance [Fintype ι] (cand : ι → List ι) (G : ι) : ByDistance cand G (workOrder cand false G) := by
  classical
  let d : ι → Nat := fun v => sInf {n | Walk cand G n v}
  let R : ι → Prop := fun v => ∃ n, Walk cand G n v
  have hd : ∀ v, R v → Walk cand G (d v) v := fun v hv => Nat.sInf_mem (s := {n | Walk cand G n v}) hv
  have hle : ∀ v n, Walk cand G n v → d v ≤ n := fun v n h => Nat.sInf_le (s := {n | Walk cand G n v}) h
  have hG : d G = 0 := Nat.le_zero.1 (hle G 0 Walk.nil)
  have h0 : ∀ v, R v → d v = 0 → v = G := by
    intro v hv h
    have := hd v hv
    rw [h] at this
    cases this
    rfl
  have hR : ∀ v ∈ workOrder cand false G, R v := by
    intro v hv
    have := ((workOrder_lists cand false G).2 v).1 hv
    induction this with
    | refl => exact ⟨0, Walk.nil⟩
    | tail hr hc ih =>
      obtain ⟨n, hn⟩ := ih (((workOrder_lists cand false G).2 _).2 hr)
      exact ⟨n + 1, Walk.step hn hc⟩
  have key := (ordLoop_distance cand d R
    (fun u hu c hc => ⟨⟨d u + 1, Walk.step (hd u hu) hc⟩, hle c _ (Walk.step (hd u hu) hc)⟩)
    (by
      intro v hv hne
      have hw := hd v hv
      obtain ⟨k, hk⟩ := Nat.exists_eq_succ_of_ne_zero hne
      rw [hk] at hw
      cases hw with
      | @step _ u _ hu hvu =>
        refine ⟨u, ⟨_, hu⟩, hvu, ?_⟩
        have h1 := hle u _ hu
        have h2 := hle v _ (Walk.step (hd u ⟨_, hu⟩) hvu)
        omega)
    (Fintype.card ι) [G] {G} (by simpa using ⟨0, Walk.nil⟩) (by simp)
    (by
      intro s rest h
      obtain ⟨rfl, rfl⟩ := List.cons.inj h
      refine ⟨by simp, fun v hv h => ?_⟩
      rw [hG] at h
      simp [h0 v hv (Nat.le_zero.1 h)])
    (by simp)).1
  unfold ByDistance
  refine List.Pairwise.imp_of_mem ?_ key
  intro u v hu hv huv m hm
  exact ⟨d u, huv.trans (hle v m hm), hd u (hR u hu)⟩

theorem ordLoop_dfs (ch : ι → List ι) (G : ι) (ht : IsTree ch G) :
    ∀ (fuel : Nat) (l : List ι) (V : Finset ι) (before : List ι),
      (∀ v ∈ V, v = G ∨ ∃ u ∈ before, v ∈ ch u) → (∀ x ∈ l, x ∉ before) → l.Nodup → (∀ x ∈ l, x ∈ V) → (∀ x ∈ before, x ∈ V) →
      (∀ above y below, l = above ++ y :: below → before ≠ [] → ∃ b₁ u b₂, before = b₁ ++ u :: b₂ ∧ y ∈ ch u ∧ ∀ w ∈ b₂, ∀ c ∈ ch w, c ∈ before ∨ c ∈ above) →
      (before = [] → l = [G]) →
      ∀ b x a, ordLoop ch fuel ⟨true, l⟩ V = b ++ x :: a → before ++ b ≠ [] →
        ∃ b₁ u b₂, before ++ b = b₁ ++ u :: b₂ ∧ x ∈ ch u ∧ ∀ w ∈ b₂, ∀ c ∈ ch w, c ∈ before ++ b := by
  intro fuel
  induction fuel with
  | zero => intro l V before _ _ _ _ _ _ _ b x a h; simp [ordLoop] at h
  | succ fuel ih =>
    intro l V before hV hlb hnd hlV hbV hl hstart b x a h hne
    rw [ordLoop] at h
    cases l with
    | nil => simp at h
    | cons s rest =>
      simp only at h
      obtain ⟨m, h1, h2, h3⟩ := giveNew_items true (ch s) rest V
      simp only [if_true] at h1
      cases b with
      | nil =>
        simp only [List.nil_append, List.cons.injEq] at h
        obtain ⟨rfl, _⟩ := h
        simp only [List.append_nil] at hne ⊢
        obtain ⟨b₁, u, b₂, e1, e2, e3⟩ := hl [] s rest rfl hne
        exact ⟨b₁, u, b₂, e1, e2, fun w hw c hc => by simpa using e3 w hw c hc⟩
      | cons b0 b =>
        simp only [List.cons_append, List.cons.injEq] at h
        obtain ⟨rfl, h⟩ := h
        rw [h1] at h
        have hsb : s ∉ before := hlb s (by simp)
        have hnew : ∀ c ∈ ch s, c ∉ V := by
          intro c hc hcV
          rcases hV c hcV with rfl | ⟨u, hu, hcu⟩
          · exact ht.2 s hc
          · exact hsb (ht.1 u s c hcu hc ▸ hu)
        rw [List.nodup_cons] at hnd
        have hspec := giveNew_spec (ch s) ⟨true, rest⟩ V hnd.2 (fun x hx => hlV x (by simp [hx]))
        have hnd' : (m ++ rest).Nodup := by
          have := hspec.1
          rw [h1] at this
          exact this
        have := ih (m ++ rest) (giveNew (ch s) ⟨true, rest⟩ V).2 (before ++ [s])
          (by
            intro v hv
            rw [giveNew_visited] at hv
            rcases hv with hv | hv
            · rcases hV v hv with h | ⟨u, hu, h⟩
              · exact Or.inl h
              · exact Or.inr ⟨u, by simp [hu], h⟩
            · exact Or.inr ⟨s, by simp, hv⟩)
          (by
            intro y hy hyb
            rcases List.mem_append.1 hyb with hyb | hyb
            · rcases List.mem_append.1 hy with hy | hy
              · exact (h2 y hy).2 (hbV y hyb)
              · exact hlb y (by simp [hy]) hyb
            · rw [List.mem_singleton] at hyb
              subst hyb
              rcases List.mem_append.1 hy with hy | hy
              · exact (h2 y hy).2 (hlV y (by simp))
              · exact hnd.1 hy)
          hnd'
          (by
            intro y hy
            rw [giveNew_visited]
            rcases List.mem_append.1 hy with hy | hy
            · exact Or.inr (h2 y hy).1
            · exact Or.inl (hlV y (by simp [hy])))
          (by
            intro y hy
            rw [giveNew_visited]
            rcases List.mem_append.1 hy with hy | hy
            · exact Or.inl (hbV y hy)
            · rw [List.mem_singleton] at hy
              exact Or.inl (hlV y (by simp [hy])))
          (by
            intro above y below he _
            by_cases hym : y ∈ m
            · exact ⟨before, s, [], rfl, (h2 y hym).1, by simp⟩
            · -- `y` is an older item: the new items lie above it
              obtain ⟨above', e1, e2⟩ : ∃ above', above = m ++ above' ∧ rest = above' ++ y :: below := by
                rcases List.append_eq_append_iff.1 he with ⟨t, e1, e2⟩ | ⟨t, e1, e2⟩
                · exact ⟨t, e1, e2⟩
                · cases t with
                  | nil => exact ⟨[], by simpa using e1.symm, by simpa using e2.symm⟩
                  | cons t0 t =>
                    simp only [List.cons_append, List.cons.injEq] at e2
                    exact absurd (by rw [e1]; simp [e2.1]) hym
              by_cases hb0 : before = []
              · have := hstart hb0
                simp only [List.cons.injEq] at this
                rw [this.2] at e2
                simp at e2
              · obtain ⟨b₁, u, b₂, f1, f2, f3⟩ := hl (s :: above') y below (by rw [e2]; rfl) hb0
                refine ⟨b₁, u, b₂ ++ [s], by rw [f1]; simp, f2, fun w hw c hc => ?_⟩
                rcases List.mem_append.1 hw with hw | hw
                · rcases f3 w hw c hc with h | h
                  · exact Or.inl (by simp [h])
                  · rcases List.mem_cons.1 h with rfl | h
                    · exact Or.inl (by simp)
                    · exact Or.inr (by rw [e1]; simp [h])
                · rw [List.mem_singleton] at hw
                  subst hw
                  exact Or.inr (by rw [e1]; simp [h3 c hc (hnew c hc)]))
          (by simp) b x a h (by simp)
        simpa using this

theorem workOrder_dfs [Fintype ι] (ch : ι → List ι) (G : ι) (ht : IsTree ch G) : DepthFirstOrder ch (workOrder ch true G) := by
  intro before x after h hne
  simpa using ordLoop_dfs ch G ht (Fintype.card ι) [G] {G} [] (by simp) (by simp) (by simp) (by simp) (by simp) (by simp) (by simp) before x after h (by simpa using hne)

end Gospn
