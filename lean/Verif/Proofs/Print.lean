import Verif.Spec.Print
import Verif.Proofs.TopoVariants
/- Helper lemmas for `PrintSPN`. -/
set_option linter.unusedSectionVars false
set_option linter.unusedSimpArgs false

namespace Gospn
open Spec GoFloat
variable {ι F : Type} [DecidableEq ι]

/-! ### Labels -/

/-- Labels given so far are different and below the counters. -/
structure LabelInv (N : Net ι F) (done : List ι) (st : LabelSt ι) : Prop where
  dom : ∀ n, (st.L n).isSome ↔ n ∈ done
  letter : ∀ n c, st.L n = some c → c.1 = (N.kind n).letter ∧ c.2 < st.T c.1
  inj : ∀ n m c, st.L n = some c → st.L m = some c → n = m

theorem labelStep_inv {N : Net ι F} {done : List ι} {st : LabelSt ι} (h : LabelInv N done st) {z : ι} (hz : z ∉ done) : LabelInv N (done ++ [z]) (labelStep N st z) := by
  have hnone : st.L z = none := by
    cases hL : st.L z with
    | none => rfl
    | some c => exact absurd ((h.dom z).1 (by simp [hL])) hz
  refine ⟨fun n => ?_, fun n c hc => ?_, fun n m c hn hm => ?_⟩
  · unfold labelStep
    by_cases hn : n = z
    · subst hn; simp
    · simp [Function.update_of_ne hn, hn, h.dom n]
  · unfold labelStep at hc ⊢
    dsimp only at hc ⊢
    by_cases hn : n = z
    · subst hn
      rw [Function.update_self] at hc
      cases hc
      simp
    · rw [Function.update_of_ne hn] at hc
      obtain ⟨h1, h2⟩ := h.letter n c hc
      refine ⟨h1, ?_⟩
      by_cases hl : c.1 = (N.kind z).letter
      · rw [hl, Function.update_self, ← hl]; omega
      · rw [Function.update_of_ne hl]; exact h2
  · unfold labelStep at hn hm
    dsimp only at hn hm
    by_cases h1 : n = z <;> by_cases h2 : m = z
    · rw [h1, h2]
    · subst h1
      rw [Function.update_self] at hn
      rw [Function.update_of_ne h2] at hm
      cases hn
      have := (h.letter m _ hm).2
      simp at this
    · subst h2
      rw [Function.update_self] at hm
      rw [Function.update_of_ne h1] at hn
      cases hm
      have := (h.letter n _ hn).2
      simp at this
    · rw [Function.update_of_ne h1] at hn
      rw [Function.update_of_ne h2] at hm
      exact h.inj n m c hn hm

theorem labelFold_inv {N : Net ι F} : ∀ (l done : List ι) (st : LabelSt ι), (done ++ l).Nodup → LabelInv N done st → LabelInv N (done ++ l) (l.foldl (labelStep N) st) := by
  intro l
  induction l with
  | nil => intro done st _ h; simpa using h
  | cons z l ih =>
    intro done st hnd h
    have hz : z ∉ done := by
      intro hz
      rw [List.nodup_append] at hnd
      exact hnd.2.2 z hz z (by simp) rfl
    have := ih (done ++ [z]) _ (by simpa using hnd) (labelStep_inv h hz)
    simpa using this

theorem printLabels_spec [Fintype ι] (N : Net ι F) (S : ι) : (∀ n, (printLabels N S n).isSome ↔ Reach N.ch S n) ∧ (∀ n c, printLabels N S n = some c → c.1 = (N.kind n).letter) ∧
    ∀ n m c, printLabels N S n = some c → printLabels N S m = some c → n = m := by
  have hl := tarjanOrder_listsReachable N.ch S
  have h := labelFold_inv (N := N) (tarjanOrder N.ch S) [] ⟨fun _ => none, fun _ => 0⟩ (by simpa using hl.1) ⟨by simp, by simp, by simp⟩
  have he : printLabels N S = ((tarjanOrder N.ch S).foldl (labelStep N) ⟨fun _ => none, fun _ => 0⟩).L := by
    unfold printLabels
    rw [topSortTarjanFunc_eq, callUntilFalse_true _ (fun _ _ => rfl)]
  rw [he]
  exact ⟨fun n => (h.dom n).trans (by simpa using hl.2 n), fun n c hc => (h.letter n c hc).1, h.inj⟩

/-! ### The queue -/

theorem joinQueue_spec : ∀ (cs Q : List ι) (V : Finset ι), ∃ new, joinQueue cs Q V = (Q ++ new, V ∪ new.toFinset) ∧ new.Nodup ∧ (∀ x ∈ new, x ∈ cs ∧ x ∉ V) ∧ ∀ c ∈ cs, c ∈ V ∨ c ∈ new := by
  intro cs
  induction cs with
  | nil => intro Q V; exact ⟨[], by simp [joinQueue], by simp, by simp, by simp⟩
  | cons c cs ih =>
    intro Q V
    by_cases hc : c ∈ V
    · obtain ⟨new, h1, h2, h3, h4⟩ := ih Q V
      refine ⟨new, ?_, h2, fun x hx => ⟨by simp [(h3 x hx).1], (h3 x hx).2⟩, fun x hx => ?_⟩
      · rw [← h1]; unfold joinQueue; rw [List.foldl_cons]; simp [hc]
      · rcases List.mem_cons.1 hx with rfl | hx
        · exact Or.inl hc
        · exact h4 x hx
    · obtain ⟨new, h1, h2, h3, h4⟩ := ih (Q ++ [c]) (insert c V)
      have hnew : c ∉ new := fun h => (h3 c h).2 (by simp)
      refine ⟨c :: new, ?_, List.nodup_cons.2 ⟨hnew, h2⟩, fun x hx => ?_, fun x hx => ?_⟩
      · have : joinQueue (c :: cs) Q V = joinQueue cs (Q ++ [c]) (insert c V) := by unfold joinQueue; rw [List.foldl_cons]; simp [hc]
        rw [this, h1]
        refine Prod.ext (by simp) ?_
        ext x
        simp
      · rcases List.mem_cons.1 hx with rfl | hx
        · exact ⟨by simp, hc⟩
        · exact ⟨by simp [(h3 x hx).1], fun h => (h3 x hx).2 (by simp [h])⟩
      · rcases List.mem_cons.1 hx with rfl | hx
        · exact Or.inr (by simp)
        · rcases h4 x hx with h | h
          · rcases Finset.mem_insert.1 h with rfl | h
            · exact Or.inr (by simp)
            · exact Or.inl h
          · exact Or.inr (by simp [h])

variable [GoFloat F] [Fintype ι]

/-- Either the block of some node below `S` cannot be printed and printing panics, or all are printed, each once. -/
theorem printLoop_spec (N : Net ι F) (L : ι → Option PName) (S : ι) : ∀ (fuel : Nat) (done Q : List ι) (V : Finset ι), Fintype.card ι ≤ fuel + done.length → (done ++ Q).Nodup →
    (∀ x, x ∈ V ↔ x ∈ done ++ Q) → (∀ x ∈ done ++ Q, Reach N.ch S x) → S ∈ done ++ Q → (∀ x ∈ done, ∀ c ∈ N.ch x, c ∈ done ++ Q) →
      ((∃ n, Reach N.ch S n ∧ printBlock N L n = none) ∧ printLoop N L fuel Q V = none) ∨
      ∃ ns bs, printLoop N L fuel Q V = some bs ∧ List.Forall₂ (fun n b => printBlock N L n = some b) ns bs ∧ Q <+: ns ∧ (done ++ ns).Nodup ∧ ∀ x, x ∈ done ++ ns ↔ Reach N.ch S x := by
  intro fuel
  induction fuel with
  | zero =>
    intro done Q V hf hnd hV hr hS hc
    have hlen := hnd.length_le_card
    rw [List.length_append] at hlen
    have : Q = [] := List.length_eq_zero_iff.1 (by omega)
    subst this
    right
    refine ⟨[], [], rfl, List.Forall₂.nil, List.prefix_rfl, hnd, fun x => ⟨hr x, fun hx => ?_⟩⟩
    induction hx with
    | refl => exact hS
    | tail _ h ih => exact hc _ (by simpa using ih) _ h
  | succ fuel ih =>
    intro done Q V hf hnd hV hr hS hc
    cases Q with
    | nil =>
      right
      refine ⟨[], [], rfl, List.Forall₂.nil, List.prefix_rfl, hnd, fun x => ⟨hr x, fun hx => ?_⟩⟩
      induction hx with
      | refl => exact hS
      | tail _ h ih => exact hc _ (by simpa using ih) _ h
    | cons s Q =>
      have hs : Reach N.ch S s := hr s (by simp)
      unfold printLoop
      cases hb : printBlock N L s with
      | none => exact Or.inl ⟨⟨s, hs, hb⟩, rfl⟩
      | some b =>
        rw [Option.bind_some]
        dsimp only
        obtain ⟨new, h1, h2, h3, h4⟩ := joinQueue_spec (N.ch s) Q V
        rw [h1]
        have hmem : ∀ x, x ∈ (done ++ [s]) ++ (Q ++ new) ↔ x ∈ done ++ s :: Q ∨ x ∈ new := by intro x; simp; tauto
        rcases ih (done ++ [s]) (Q ++ new) (V ∪ new.toFinset) (by simp; omega) (by
            rw [show (done ++ [s]) ++ (Q ++ new) = (done ++ s :: Q) ++ new by simp]
            rw [List.nodup_append]
            refine ⟨hnd, h2, ?_⟩
            rintro x hx y hy rfl
            exact (h3 x hy).2 ((hV x).2 hx)) (by
            intro x
            rw [hmem, Finset.mem_union, hV, List.mem_toFinset]) (by
            intro x hx
            rcases (hmem x).1 hx with hx | hx
            · exact hr x hx
            · exact hs.tail (h3 x hx).1) ((hmem S).2 (Or.inl hS)) (by
            intro x hx c hxc
            rw [hmem]
            rcases List.mem_append.1 hx with hx | hx
            · exact Or.inl (hc x hx c hxc)
            · simp at hx
              subst hx
              rcases h4 c hxc with h | h
              · exact Or.inl ((hV c).1 h)
              · exact Or.inr h) with ⟨g1, g2⟩ | ⟨ns, bs, g1, g2, g3, g4, g5⟩
        · left
          exact ⟨g1, by dsimp only; rw [g2]; rfl⟩
        · right
          refine ⟨s :: ns, b :: bs, by dsimp only; rw [g1]; rfl, List.Forall₂.cons hb g2, ?_, by simpa using g4, fun x => by simpa using g5 x⟩
          obtain ⟨t, ht⟩ := g3
          exact ⟨new ++ t, by simp [← ht]⟩

theorem sumLines_eq {L : ι → Option PName} {name : ι → PName} : ∀ (cs : List ι) (w : List F), cs.length ≤ w.length → (∀ c ∈ cs, L c = some (name c)) →
    sumLines L cs w = some ((cs.map name).zip (w.map some)) := by
  intro cs
  induction cs with
  | nil => intro w _ _; simp [sumLines]
  | cons c cs ih =>
    intro w hw h
    cases w with
    | nil => simp at hw
    | cons x w =>
      unfold sumLines
      rw [h c (by simp), Option.bind_some, ih w (by simpa using hw) fun d hd => h d (by simp [hd])]
      simp

theorem mapM_labels {L : ι → Option PName} {name : ι → PName} : ∀ (cs : List ι), (∀ c ∈ cs, L c = some (name c)) → cs.mapM L = some (cs.map name) := by
  intro cs
  induction cs with
  | nil => intro _; rfl
  | cons c cs ih =>
    intro h
    rw [List.mapM_cons, h c (by simp), ih fun d hd => h d (by simp [hd])]
    rfl

/-! ### Blocks -/

theorem Net.ch_sum {N : Net ι F} {n : ι} {cs : List ι} {w : List F} (h : N.kind n = .sum cs w) : N.ch n = cs := by simp [Net.ch, h]

theorem Net.ch_product {N : Net ι F} {n : ι} {cs : List ι} (h : N.kind n = .product cs) : N.ch n = cs := by simp [Net.ch, h]

theorem sumLines_short {L : ι → Option PName} : ∀ (cs : List ι) (w : List F), w.length < cs.length → sumLines L cs w = none := by
  intro cs
  induction cs with
  | nil => intro w h; simp at h
  | cons c cs ih =>
    intro w h
    cases w with
    | nil => rfl
    | cons x w =>
      unfold sumLines
      rw [ih w (by simpa using h)]
      cases L c <;> rfl

theorem printBlock_none {N : Net ι F} {L : ι → Option PName} {name : ι → PName} {n : ι} (hn : L n = some (name n)) (hc : ∀ c ∈ N.ch n, L c = some (name c)) :
    printBlock N L n = none ↔ (∃ v x, N.kind n = .leaf (.indicator v x)) ∨ ∃ cs w, N.kind n = .sum cs w ∧ w.length < cs.length := by
  unfold printBlock
  rw [hn, Option.bind_some]
  cases hk : N.kind n with
  | leaf l => cases l <;> simp [Leaf.muSigma]
  | product cs =>
    rw [Net.ch_product hk] at hc
    simp [mapM_labels cs hc]
  | sum cs w =>
    rw [Net.ch_sum hk] at hc
    by_cases h : w.length < cs.length
    · simp [sumLines_short cs w h, h]
    · simp [sumLines_eq cs w (by omega) hc]
      omega

theorem printBlock_some {N : Net ι F} {L : ι → Option PName} {name : ι → PName} {n : ι} {b : PBlock F} (hn : L n = some (name n)) (hc : ∀ c ∈ N.ch n, L c = some (name c))
    (h : printBlock N L n = some b) : b.name = name n ∧ (∀ cs w, N.kind n = .sum cs w → b.body = .kids ((cs.map name).zip (w.map some))) ∧
      (∀ cs, N.kind n = .product cs → b.body = .kids (cs.map fun c => (name c, none))) ∧ ∀ l, N.kind n = .leaf l → b.body = .leaf (leafNumbers l).1 (leafNumbers l).2 := by
  unfold printBlock at h
  rw [hn, Option.bind_some] at h
  cases hk : N.kind n with
  | leaf l =>
    rw [hk] at h
    cases l <;> simp [Leaf.muSigma] at h <;> subst h <;> simp [leafNumbers]
  | product cs =>
    rw [Net.ch_product hk] at hc
    rw [hk] at h
    simp [mapM_labels cs hc] at h
    subst h
    simp
  | sum cs w =>
    rw [Net.ch_sum hk] at hc
    rw [hk] at h
    dsimp only at h
    by_cases hl : w.length < cs.length
    · simp [sumLines_short cs w hl] at h
    · rw [sumLines_eq cs w (by omega) hc] at h
      simp at h
      subst h
      simp

theorem forall₂_zip {α β : Type} {R : α → β → Prop} {l : List α} {m : List β} (h : List.Forall₂ R l m) : ∀ a b, (a, b) ∈ l.zip m → R a b := by
  induction h with
  | nil => simp
  | cons h _ ih =>
    intro a b hab
    simp at hab
    rcases hab with ⟨rfl, rfl⟩ | hab
    · exact h
    · exact ih a b hab

theorem printSPN_spec (N : Net ι F) (S : ι) :
    ((∃ n, Reach N.ch S n ∧ ((∃ v x, N.kind n = .leaf (.indicator v x)) ∨ ∃ cs w, N.kind n = .sum cs w ∧ w.length < cs.length)) ∧ printSPN N S = none) ∨
    ∃ out ns name, printSPN N S = some out ∧ Prints N S out ns name ∧
      ∀ n, Reach N.ch S n → ¬ ((∃ v x, N.kind n = .leaf (.indicator v x)) ∨ ∃ cs w, N.kind n = .sum cs w ∧ w.length < cs.length) := by
  obtain ⟨h1, h2, h3⟩ := printLabels_spec N S
  let name : ι → PName := fun n => (printLabels N S n).getD (.L, 0)
  have hname : ∀ n, Reach N.ch S n → printLabels N S n = some (name n) := by
    intro n hn
    obtain ⟨c, hc⟩ := Option.isSome_iff_exists.1 ((h1 n).2 hn)
    simp [name, hc]
  have hch : ∀ n, Reach N.ch S n → ∀ c ∈ N.ch n, printLabels N S c = some (name c) := fun n hn c hc => hname c (hn.tail hc)
  rcases printLoop_spec N (printLabels N S) S (Fintype.card ι) [] [S] {S} (by simp) (by simp) (by simp) (by simp; exact Relation.ReflTransGen.refl) (by simp) (by simp) with
    ⟨⟨n, hn, hb⟩, h⟩ | ⟨ns, out, g1, g2, g3, g4, g5⟩
  · exact Or.inl ⟨⟨n, hn, (printBlock_none (hname n hn) (hch n hn)).1 hb⟩, h⟩
  · right
    have hr : ∀ n ∈ ns, Reach N.ch S n := fun n hn => (g5 n).1 (by simpa using hn)
    have hz := forall₂_zip g2
    refine ⟨out, ns, name, g1, ⟨⟨by simpa using g4, fun x => by simpa using g5 x⟩, ?_, ?_, ?_, ?_, ?_, ?_, ?_, ?_⟩, ?_⟩
    · obtain ⟨t, rfl⟩ := g3
      simp
    · intro n m hn hm he
      exact h3 n m (name n) (hname n hn) (by rw [he]; exact hname m hm)
    · intro n hn
      rw [h2 n _ (hname n hn)]
      cases N.kind n <;> simp [Kind.letter]
    · intro n hn
      rw [h2 n _ (hname n hn)]
      cases N.kind n <;> simp [Kind.letter]
    · clear g1 g3 g4 g5 hz
      induction g2 with
      | nil => rfl
      | cons hb _ ih =>
        simp only [List.map_cons]
        rw [(printBlock_some (hname _ (hr _ (by simp))) (hch _ (hr _ (by simp))) hb).1, ih fun n hn => hr n (by simp [hn])]
    · intro n b cs w hnb hk
      have hn := hr n (List.of_mem_zip hnb).1
      exact (printBlock_some (hname n hn) (hch n hn) (hz n b hnb)).2.1 cs w hk
    · intro n b cs hnb hk
      have hn := hr n (List.of_mem_zip hnb).1
      exact (printBlock_some (hname n hn) (hch n hn) (hz n b hnb)).2.2.1 cs hk
    · intro n b l hnb hk
      have hn := hr n (List.of_mem_zip hnb).1
      exact (printBlock_some (hname n hn) (hch n hn) (hz n b hnb)).2.2.2 l hk
    · intro n hn hbad
      have hmem : n ∈ ns := by simpa using (g5 n).2 hn
      have := (printBlock_none (hname n hn) (hch n hn)).2 hbad
      obtain ⟨b, hb⟩ : ∃ b, printBlock N (printLabels N S) n = some b := by
        clear g1 g3 g4 g5 hz hr
        induction g2 with
        | nil => simp at hmem
        | cons hb _ ih =>
          rcases List.mem_cons.1 hmem with rfl | hm
          · exact ⟨_, hb⟩
          · exact ih hm
      rw [this] at hb
      cases hb

/-! ### Reading the text back -/

theorem Spec.Prints.block {κ : Type} {N : Net κ F} {S : κ} {out : List (PBlock F)} {ns : List κ} {name : κ → PName} (h : Prints N S out ns name) {n : κ} (hn : Reach N.ch S n) :
    ∃ b, (n, b) ∈ ns.zip out ∧ b ∈ out ∧ b.name = name n := by
  have hmem := (h.nodes.2 n).2 hn
  have hb := h.blocks
  clear h hn
  induction ns generalizing out with
  | nil => simp at hmem
  | cons m ns ih =>
    cases out with
    | nil => simp at hb
    | cons b out =>
      simp only [List.map_cons, List.cons.injEq] at hb
      rcases List.mem_cons.1 hmem with rfl | hm
      · exact ⟨b, by simp, by simp, hb.1⟩
      · obtain ⟨b', g1, g2, g3⟩ := ih hm hb.2
        exact ⟨b', by simp [g1], by simp [g2], g3⟩

theorem Spec.Prints.unique {κ : Type} {N : Net κ F} {S : κ} {out : List (PBlock F)} {ns : List κ} {name : κ → PName} (h : Prints N S out ns name) :
    ∀ b ∈ out, ∀ b' ∈ out, b.name = b'.name → b = b' := by
  have : (out.map (·.name)).Nodup := by
    rw [h.blocks]
    exact (List.nodup_map_iff_inj_on h.nodes.1).2 fun x hx y hy e => h.names x y ((h.nodes.2 x).1 hx) ((h.nodes.2 y).1 hy) e
  intro b hb b' hb' e
  exact List.inj_on_of_nodup_map this hb hb' e

end Gospn
