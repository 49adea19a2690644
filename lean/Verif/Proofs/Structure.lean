import Verif.Spec.Structure
import Verif.Proofs.Search
import Verif.Proofs.Spn
import Verif.Proofs.Log
import Mathlib.Data.List.Nodup
import Mathlib.Algebra.BigOperators.Ring.List
import Mathlib.Algebra.Order.BigOperators.Group.List
import Mathlib.Tactic.Linarith
import Mathlib.Tactic.FieldSimp
/-
Normalisation, heights, scopes.
-/
set_option linter.unusedSectionVars false
namespace Gospn
open Spec

/-! ### Normalisation -/

theorem foldl_min_le (v : List ℝ) : ∀ m : ℝ, v.foldl min m ≤ m ∧ (∀ x ∈ v, v.foldl min m ≤ x) ∧ (v.foldl min m = m ∨ v.foldl min m ∈ v) := by
  induction v with
  | nil => simp
  | cons a v ih =>
    intro m
    obtain ⟨h1, h2, h3⟩ := ih (min m a)
    rw [List.foldl_cons]
    refine ⟨h1.trans (min_le_left _ _), ?_, ?_⟩
    · intro x hx
      rcases List.mem_cons.1 hx with rfl | hx
      · exact h1.trans (min_le_right _ _)
      · exact h2 x hx
    · rcases h3 with h3 | h3
      · rw [h3]
        rcases min_choice m a with h | h
        · exact Or.inl h
        · exact Or.inr (by rw [h]; simp)
      · exact Or.inr (by simp [h3])

theorem minOrZero_eq_zero {v : List ℝ} (h : ∀ x ∈ v, 0 ≤ x) : minOrZero v = 0 := by
  obtain ⟨h1, h2, h3⟩ := foldl_min_le v 0
  rcases h3 with h3 | h3
  · exact h3
  · exact le_antisymm h1 (h _ h3)

theorem minZero_fin (v : List ℝ) : minZero (v.map XR.fin) = XR.fin (minOrZero v) := by
  have aux : ∀ (v : List ℝ) (m : ℝ), (v.map XR.fin).foldl (fun m u => if GoFloat.lt u m then u else m) (XR.fin m) = XR.fin (v.foldl min m) := by
    intro v
    induction v with
    | nil => intro m; simp
    | cons a v ih =>
      intro m
      simp only [List.map_cons, List.foldl_cons, XR.g_lt, XR.lt_fin]
      by_cases h : a < m
      · rw [if_pos h, min_eq_right h.le]; exact ih a
      · rw [if_neg h, min_eq_left (not_lt.1 h)]; exact ih m
  have := aux v 0
  unfold minZero
  rw [XR.g_ofInt, Int.cast_zero]; exact this

theorem foldl_add_fin' (v : List ℝ) : ∀ a : ℝ, (v.map XR.fin).foldl GoFloat.add (XR.fin a) = XR.fin (a + v.sum) := by
  induction v with
  | nil => intro a; simp
  | cons x v ih =>
    intro a
    simp only [List.map_cons, List.foldl_cons, XR.g_add, XR.add_fin, List.sum_cons]
    rw [ih]; congr 1; ring

theorem divSum_fin (v : List ℝ) (h : v.sum ≠ 0) : divSum (v.map XR.fin) = (v.map (fun x => x / v.sum)).map XR.fin := by
  unfold divSum
  have h0 := foldl_add_fin' v 0
  have : ((GoFloat.ofInt 0 : XR)) = XR.fin 0 := by simp
  rw [this, h0, zero_add]
  simp only [List.map_map]
  apply List.map_congr_left
  intro x _
  simp [h]

theorem sum_map_div (v : List ℝ) (s : ℝ) : (v.map (fun x => x / s)).sum = v.sum / s := by
  induction v with
  | nil => simp
  | cons a v ih => simp only [List.map_cons, List.sum_cons, ih]; ring

theorem isDist_div {v : List ℝ} (h0 : ∀ x ∈ v, 0 ≤ x) (hs : 0 < v.sum) : IsDist (v.map (fun x => x / v.sum)) := by
  refine ⟨?_, ?_⟩
  · intro x hx
    obtain ⟨y, hy, rfl⟩ := List.mem_map.1 hx
    exact div_nonneg (h0 y hy) hs.le
  · rw [sum_map_div, div_self hs.ne']

theorem shiftNonneg_nonneg (v : List ℝ) : ∀ x ∈ shiftNonneg v, 0 ≤ x := by
  intro x hx
  obtain ⟨y, hy, rfl⟩ := List.mem_map.1 hx
  have := (foldl_min_le v 0).2.1 y hy
  show 0 ≤ y - v.foldl min 0
  linarith

theorem learnNormalize_fin (v : List ℝ) : learnNormalize (v.map XR.fin) = divSum ((shiftNonneg v).map XR.fin) := by
  unfold learnNormalize
  dsimp only
  rw [minZero_fin]
  congr 1
  simp only [XR.g_lt, XR.g_ofInt, Int.cast_zero, XR.lt_fin]
  by_cases h : minOrZero v < 0
  · rw [if_pos h]; simp [shiftNonneg]
  · rw [if_neg h]
    have : minOrZero v = 0 := le_antisymm (foldl_min_le v 0).1 (not_lt.1 h)
    simp [shiftNonneg, this]

theorem spnNorm_fin {v : List ℝ} (h : ∀ x ∈ v, 0 ≤ x) : spnNorm (v.map XR.fin) = divSum (v.map XR.fin) := by
  unfold spnNorm
  dsimp only
  rw [minZero_fin, minOrZero_eq_zero h]
  simp [XR.lt]

/-! ### NormalizeSPN -/

section Graph
variable {ι F : Type} [DecidableEq ι] [Fintype ι]

theorem foldl_update_once {α : Type} (p : ι → Bool) (f : α → α) (l : List ι) (hl : l.Nodup) (W : ι → α) :
    l.foldl (fun W s => if p s then Function.update W s (f (W s)) else W) W = fun n => if n ∈ l ∧ p n then f (W n) else W n := by
  induction l generalizing W with
  | nil => simp
  | cons s l ih =>
    rw [List.nodup_cons] at hl
    rw [List.foldl_cons, ih hl.2]
    funext n
    by_cases hns : n = s
    · subst hns
      by_cases hp : p n = true
      · simp [hp, hl.1]
      · simp [hp]
    · by_cases hp : p s = true
      · simp [hp, hns]
      · simp [hp, hns]

theorem normalizeSPN_eq [GoFloat F] (N : Net ι F) (S : ι) :
    N.normalizeSPN S = some (N.withWeights (fun n => if n ∈ workOrder N.ch false S ∧ N.type n = .sum then spnNorm (N.weights n) else N.weights n)) := by
  unfold Net.normalizeSPN
  rw [work_static_pure _ (fun W s => if N.type s = .sum then Function.update W s (spnNorm (W s)) else W) N.ch (fun _ _ => rfl)]
  have := foldl_update_once (fun n => decide (N.type n = .sum)) (spnNorm (F := F)) (workOrder N.ch false S) (workOrder_lists N.ch false S).1 N.weights
  simp only [decide_eq_true_eq] at this
  rw [this]; rfl

/-! ### Heights -/

theorem heightStep_local (ch : ι → List ι) : LocalStep ch (heightStep ch) := by
  intro f g n h
  unfold heightStep
  have : ∀ (l : List ι) (a : Nat), (∀ c ∈ l, f c = g c) → l.foldl (fun v c => let t := f c; if t > v then t else v) a = l.foldl (fun v c => let t := g c; if t > v then t else v) a := by
    intro l
    induction l with
    | nil => intro a _; rfl
    | cons c l ih =>
      intro a hl
      simp only [List.foldl_cons, hl c (by simp)]
      exact ih _ (fun d hd => hl d (by simp [hd]))
  rw [this _ _ h]

theorem foldl_height_spec (f : ι → Nat) (l : List ι) : ∀ a : Nat,
    let r := l.foldl (fun v c => let t := f c; if t > v then t else v) a
    a ≤ r ∧ (∀ c ∈ l, f c ≤ r) ∧ (r = a ∨ ∃ c ∈ l, r = f c) := by
  induction l with
  | nil => intro a; simp
  | cons c l ih =>
    intro a
    dsimp only [List.foldl_cons]
    obtain ⟨h1, h2, h3⟩ := ih (if f c > a then f c else a)
    have ha : a ≤ (if f c > a then f c else a) := by split <;> omega
    have hc : f c ≤ (if f c > a then f c else a) := by split <;> omega
    refine ⟨ha.trans h1, ?_, ?_⟩
    · intro d hd
      rcases List.mem_cons.1 hd with rfl | hd
      · exact hc.trans h1
      · exact h2 d hd
    · rcases h3 with h3 | ⟨d, hd, h3⟩
      · by_cases hg : f c > a
        · right; refine ⟨c, by simp, ?_⟩; rw [h3, if_pos hg]
        · left; rw [h3, if_neg hg]
      · right; exact ⟨d, by simp [hd], h3⟩

theorem height_unfold {ch : ι → List ι} (hac : Acyclic ch) (n : ι) : height ch n = heightStep ch (height ch) n :=
  dagRec_unfold hac (heightStep_local ch) 0 n

theorem Spec.Steps.head {ch : ι → List ι} {a b c : ι} {k : Nat} (hb : b ∈ ch a) (h : Steps ch k b c) : Steps ch (k + 1) a c := by
  induction h with
  | zero b => exact Steps.succ (Steps.zero a) hb
  | succ _ hc ih => exact Steps.succ (ih hb) hc

theorem Spec.Steps.head_cases {ch : ι → List ι} {a c : ι} {k : Nat} (h : Steps ch k a c) : (k = 0 ∧ c = a) ∨ ∃ b j, b ∈ ch a ∧ k = j + 1 ∧ Steps ch j b c := by
  induction h with
  | zero b => exact Or.inl ⟨rfl, rfl⟩
  | @succ k a b c h hc ih =>
    rcases ih with ⟨rfl, rfl⟩ | ⟨d, j, hd, rfl, hs⟩
    · exact Or.inr ⟨c, 0, hc, rfl, Steps.zero c⟩
    · exact Or.inr ⟨d, j + 1, hd, rfl, Steps.succ hs hc⟩

theorem Spec.Steps.reach {ch : ι → List ι} {a c : ι} {k : Nat} (h : Steps ch k a c) : Reach ch a c := by
  induction h with
  | zero b => exact Relation.ReflTransGen.refl
  | succ _ hc ih => exact Relation.ReflTransGen.tail ih hc

theorem Spec.Reach.steps {ch : ι → List ι} {a c : ι} (h : Reach ch a c) : ∃ k, Steps ch k a c := by
  induction h with
  | refl => exact ⟨0, Steps.zero a⟩
  | tail _ hc ih => obtain ⟨k, hk⟩ := ih; exact ⟨k + 1, Steps.succ hk hc⟩

theorem height_longest {ch : ι → List ι} (hac : Acyclic ch) (n : ι) : IsLongestPath ch n (height ch n) := by
  obtain ⟨rank, hr⟩ := id hac
  induction hk : rank n using Nat.strongRecOn generalizing n with
  | ind k ih =>
    rw [height_unfold hac]
    unfold heightStep
    by_cases hc : (ch n).length > 0
    · rw [if_pos hc]
      obtain ⟨h1, h2, h3⟩ := foldl_height_spec (height ch) (ch n) 0
      generalize hm : (ch n).foldl (fun v c => let t := height ch c; if t > v then t else v) 0 = m at h1 h2 h3
      have hih : ∀ c ∈ ch n, IsLongestPath ch c (height ch c) := fun c hc => ih (rank c) (by rw [← hk]; exact hr n c hc) c rfl
      refine ⟨?_, ?_⟩
      · obtain ⟨c, hcm, hce⟩ : ∃ c ∈ ch n, m = height ch c := by
          rcases h3 with h3 | h3
          · obtain ⟨c, hcm⟩ := List.exists_mem_of_length_pos hc
            exact ⟨c, hcm, by have := h2 c hcm; omega⟩
          · exact h3
        obtain ⟨b, hb, hb0⟩ := (hih c hcm).1
        exact ⟨b, by rw [hce]; exact Steps.head hcm hb, hb0⟩
      · intro j b hs hb
        rcases hs.head_cases with ⟨rfl, rfl⟩ | ⟨c, i, hcm, rfl, hs'⟩
        · exact Nat.zero_le _
        · have := (hih c hcm).2 i b hs' hb
          have := h2 c hcm
          omega
    · rw [if_neg hc]
      have hn : ch n = [] := List.length_eq_zero_iff.1 (by omega)
      refine ⟨⟨n, Steps.zero n, hn⟩, ?_⟩
      intro j b hs _
      rcases hs.head_cases with ⟨rfl, rfl⟩ | ⟨c, i, hcm, rfl, hs⟩
      · exact Nat.le_refl _
      · rw [hn] at hcm; exact absurd hcm (by simp)

/-- The body of the loop of `ComputeHeight`. -/
def chStep (ch : ι → List ι) (ty : ι → NodeType) (x : (ι → Option Nat) × Nat) (s : ι) : (ι → Option Nat) × Nat :=
  let d := (x.1 s).getD 0
  let h := if ty s = .leaf ∧ d > x.2 then d else x.2
  ((ch s).foldl (fun V c => if V c = none then Function.update V c (some ((V s).getD 0 + 1)) else V) x.1, h)

theorem depth_fold (s : ι) (d : Nat) (cs : List ι) : ∀ (V : ι → Option Nat), V s = some d → ∀ n,
    (cs.foldl (fun V c => if V c = none then Function.update V c (some ((V s).getD 0 + 1)) else V) V) n =
      if V n = none ∧ n ∈ cs then some (d + 1) else V n := by
  induction cs with
  | nil => intro V _ n; simp
  | cons c cs ih =>
    intro V hs n
    rw [List.foldl_cons]
    by_cases hc : V c = none
    · have hcs : s ≠ c := by rintro rfl; rw [hs] at hc; exact absurd hc (by simp)
      rw [if_pos hc, ih _ (by rw [Function.update_of_ne hcs]; exact hs)]
      by_cases hn : n = c
      · subst hn; simp [hc, hs]
      · simp [hn]
    · rw [if_neg hc, ih V hs]
      by_cases hn : n = c
      · subst hn; simp [hc]
      · simp [hn]

theorem computeHeight_loop (ch : ι → List ι) (ty : ι → NodeType) (S : ι) : ∀ (fuel : Nat) (C : Coll ι) (V : Finset ι) (x : (ι → Option Nat) × Nat),
    C.items.Nodup → (∀ v ∈ C.items, v ∈ V) → (Vᶜ).card + C.items.length ≤ fuel →
    (∀ v, v ∈ V → ∃ d, x.1 v = some d ∧ Steps ch d S v) → (∀ v, v ∉ V → x.1 v = none) →
    (x.2 = 0 ∨ ∃ m, Steps ch x.2 S m ∧ ty m = .leaf) →
    (∀ v ∈ V, v ∉ C.items → (∀ c ∈ ch v, c ∈ V) ∧ (ty v = .leaf → (x.1 v).getD 0 ≤ x.2)) →
    ∃ (y : (ι → Option Nat) × Nat) (V' : Finset ι), workLoop (fun x s => some (chStep ch ty x s, some (ch s))) fuel C V x = some y ∧
      (y.2 = 0 ∨ ∃ m, Steps ch y.2 S m ∧ ty m = .leaf) ∧ V ⊆ V' ∧
      (∀ v ∈ V', (∀ c ∈ ch v, c ∈ V') ∧ ∃ d, Steps ch d S v ∧ (ty v = .leaf → d ≤ y.2)) := by
  intro fuel
  induction fuel with
  | zero =>
    intro C V x h1 h2 hf h3 h4 h5 h6
    have hi : C.items = [] := List.length_eq_zero_iff.1 (by omega)
    refine ⟨x, V, rfl, h5, Finset.Subset.refl _, ?_⟩
    intro v hv
    obtain ⟨a, b⟩ := h6 v hv (by simp [hi])
    obtain ⟨d, hd, hs⟩ := h3 v hv
    exact ⟨a, d, hs, fun hl => by have := b hl; rw [hd] at this; exact this⟩
  | succ fuel ih =>
    intro C V x h1 h2 hf h3 h4 h5 h6
    rw [workLoop]
    cases hC : C.items with
    | nil =>
      refine ⟨x, V, rfl, h5, Finset.Subset.refl _, ?_⟩
      intro v hv
      obtain ⟨a, b⟩ := h6 v hv (by simp [hC])
      obtain ⟨d, hd, hs⟩ := h3 v hv
      exact ⟨a, d, hs, fun hl => by have := b hl; rw [hd] at this; exact this⟩
    | cons s rest =>
      simp only
      rw [hC] at h1 h2 h6
      rw [List.nodup_cons] at h1
      have hsV : s ∈ V := h2 s (by simp)
      obtain ⟨ds, hds, hss⟩ := h3 s hsV
      obtain ⟨a, b, d, e⟩ := giveNew_spec (ch s) { C with items := rest } V h1.2 (fun v hv => h2 v (by simp [hv]))
      simp only at d
      generalize hr : giveNew (ch s) { C with items := rest } V = r at a b d e
      have hx1 : (chStep ch ty x s).1 = fun n => if x.1 n = none ∧ n ∈ ch s then some (ds + 1) else x.1 n := by
        funext n; exact depth_fold s ds (ch s) x.1 hds n
      have hx2 : (chStep ch ty x s).2 = if ty s = .leaf ∧ ds > x.2 then ds else x.2 := by
        simp [chStep, hds]
      have hnone : ∀ v, x.1 v = none ↔ v ∉ V := by
        intro v
        constructor
        · intro hv hvV; obtain ⟨d, hd, -⟩ := h3 v hvV; rw [hd] at hv; exact absurd hv (by simp)
        · exact h4 v
      have hle : x.2 ≤ (chStep ch ty x s).2 := by rw [hx2]; split <;> omega
      obtain ⟨y, V', g1, g2, g3, g4⟩ := ih r.1 r.2 (chStep ch ty x s) a
        (by
          intro v hv
          rw [b, Finset.mem_union, List.mem_toFinset]
          rcases (d v).1 hv with h | h
          · exact Or.inl (h2 v (by simp [h]))
          · exact Or.inr h.1)
        (by
          -- fuel
          have hlen : r.1.items.length = rest.length + ((ch s).toFinset \ V).card := by
            have e1 : r.1.items.toFinset = rest.toFinset ∪ ((ch s).toFinset \ V) := by
              ext v; simp [d v]
            have e2 : r.1.items.toFinset.card = r.1.items.length := List.toFinset_card_of_nodup a
            have e3 : rest.toFinset.card = rest.length := List.toFinset_card_of_nodup h1.2
            rw [← e2, e1, Finset.card_union_of_disjoint, e3]
            rw [Finset.disjoint_left]
            intro v hv hv2
            simp at hv hv2
            exact hv2.2 (h2 v (by simp [hv]))
          have hcard : (r.2ᶜ).card + ((ch s).toFinset \ V).card = (Vᶜ).card := by
            rw [b, ← Finset.card_union_of_disjoint]
            · congr 1
              ext v; simp; tauto
            · rw [Finset.disjoint_left]
              intro v hv hv2
              simp at hv hv2; exact hv.2 hv2.1
          rw [hC] at hf
          simp only [List.length_cons] at hf
          omega)
        (by
          intro v hv
          rw [b, Finset.mem_union, List.mem_toFinset] at hv
          rw [hx1]
          by_cases hvV : v ∈ V
          · obtain ⟨dv, h7, h8⟩ := h3 v hvV
            refine ⟨dv, ?_, h8⟩
            dsimp only
            rw [if_neg (by rw [h7]; simp)]; exact h7
          · have hvc : v ∈ ch s := by tauto
            refine ⟨ds + 1, ?_, Steps.succ hss hvc⟩
            dsimp only
            rw [if_pos ⟨(hnone v).2 hvV, hvc⟩])
        (by
          intro v hv
          rw [b, Finset.mem_union, List.mem_toFinset, not_or] at hv
          rw [hx1]
          dsimp only
          rw [if_neg (by tauto)]; exact h4 v hv.1)
        (by
          rw [hx2]
          split
          · rename_i h; exact Or.inr ⟨s, hss, h.1⟩
          · exact h5)
        (by
          intro v hv hvi
          rw [d v, not_or] at hvi
          have hvV : v ∈ V := by
            rw [b, Finset.mem_union, List.mem_toFinset] at hv
            tauto
          rw [hx1]
          have hval : (if x.1 v = none ∧ v ∈ ch s then some (ds + 1) else x.1 v) = x.1 v := if_neg (by rw [hnone v]; tauto)
          by_cases hvs : v = s
          · subst hvs
            refine ⟨fun c hc => by rw [b, Finset.mem_union, List.mem_toFinset]; exact Or.inr hc, fun hl => ?_⟩
            dsimp only
            rw [hval, hds, hx2]
            show ds ≤ _
            split
            · exact Nat.le_refl _
            · rename_i h; have : ¬ ds > x.2 := fun hh => h ⟨hl, hh⟩
              omega
          · obtain ⟨k1, k2⟩ := h6 v hvV (by simp [hvs, hvi.1])
            refine ⟨fun c hc => by rw [b, Finset.mem_union]; exact Or.inl (k1 c hc), fun hl => ?_⟩
            dsimp only
            rw [hval]
            exact (k2 hl).trans hle)
      refine ⟨y, V', g1, g2, fun v hv => g3 (by rw [b, Finset.mem_union]; exact Or.inl hv), g4⟩

/-- What `ComputeHeight` returns: the length of some path to a leaf, and at least one path to each leaf is not longer. -/
theorem computeHeight_spec (ch : ι → List ι) (ty : ι → NodeType) (S : ι) :
    ∃ h, computeHeight ch ty S = some h ∧ (h = 0 ∨ ∃ m, Steps ch h S m ∧ ty m = .leaf) ∧
      ∀ v, Reach ch S v → ty v = .leaf → ∃ d, Steps ch d S v ∧ d ≤ h := by
  obtain ⟨y, V', h1, h2, h3, h4⟩ := computeHeight_loop ch ty S (Fintype.card ι) ⟨true, [S]⟩ {S} (fun n => if n = S then some 0 else none, 0)
    (by simp) (by simp) (by
      rw [Finset.card_compl]; simp
      have : 0 < Fintype.card ι := Fintype.card_pos_iff.2 ⟨S⟩
      omega)
    (by intro v hv; simp at hv; subst hv; exact ⟨0, by simp, Steps.zero v⟩)
    (by intro v hv; simp at hv; simp [hv]) (Or.inl rfl) (by intro v hv hv2; simp at hv hv2; exact absurd hv hv2)
  refine ⟨y.2, ?_, h2, ?_⟩
  · unfold computeHeight work
    have : workLoop (fun x s => some (chStep ch ty x s, some (ch s))) (Fintype.card ι) ⟨true, [S]⟩ {S} (fun n => if n = S then some 0 else none, 0) = some y := h1
    unfold chStep at this
    simp only at this ⊢
    rw [this]; rfl
  · intro v hv hl
    have hvV : ∀ w, Reach ch S w → w ∈ V' := by
      intro w hw
      induction hw with
      | refl => exact h3 (by simp)
      | tail _ hc ih => exact (h4 _ ih).1 _ hc
    obtain ⟨d, hs, hd⟩ := (h4 v (hvV v hv)).2
    exact ⟨d, hs, hd hl⟩

/-! ### Scopes -/

theorem keysOf_spec (raw : ι → List Int) (cs : List ι) : (keysOf raw cs).Nodup ∧ ∀ v, v ∈ keysOf raw cs ↔ ∃ c ∈ cs, v ∈ raw c := by
  have inner : ∀ (l m : List Int), m.Nodup → (l.foldl (fun m v => if v ∈ m then m else m ++ [v]) m).Nodup ∧
      ∀ v, v ∈ l.foldl (fun m v => if v ∈ m then m else m ++ [v]) m ↔ v ∈ m ∨ v ∈ l := by
    intro l
    induction l with
    | nil => intro m hm; simp [hm]
    | cons a l ih =>
      intro m hm
      rw [List.foldl_cons]
      by_cases ha : a ∈ m
      · rw [if_pos ha]
        obtain ⟨h1, h2⟩ := ih m hm
        refine ⟨h1, fun v => ?_⟩
        rw [h2]
        constructor
        · rintro (h | h) <;> simp [h]
        · rintro (h | h)
          · exact Or.inl h
          · rcases List.mem_cons.1 h with rfl | h
            · exact Or.inl ha
            · exact Or.inr h
      · rw [if_neg ha]
        obtain ⟨h1, h2⟩ := ih (m ++ [a]) (by
          rw [List.nodup_append]; exact ⟨hm, by simp, by intro x hx y hy e; simp at hy; subst hy; subst e; exact ha hx⟩)
        refine ⟨h1, fun v => ?_⟩
        rw [h2]; simp [or_assoc]
  have outer : ∀ (cs : List ι) (m : List Int), m.Nodup →
      (cs.foldl (fun m c => (raw c).foldl (fun m v => if v ∈ m then m else m ++ [v]) m) m).Nodup ∧
      ∀ v, v ∈ cs.foldl (fun m c => (raw c).foldl (fun m v => if v ∈ m then m else m ++ [v]) m) m ↔ v ∈ m ∨ ∃ c ∈ cs, v ∈ raw c := by
    intro cs
    induction cs with
    | nil => intro m hm; simp [hm]
    | cons c cs ih =>
      intro m hm
      rw [List.foldl_cons]
      obtain ⟨a1, a2⟩ := inner (raw c) m hm
      obtain ⟨h1, h2⟩ := ih _ a1
      refine ⟨h1, fun v => ?_⟩
      rw [h2, a2]; simp [or_assoc]
  obtain ⟨h1, h2⟩ := outer cs [] (by simp)
  exact ⟨h1, fun v => by rw [keysOf, h2]; simp⟩

/-- The variables recorded at the childless nodes below `n`. -/
def ScopeBelow (ch : ι → List ι) (raw : ι → List Int) (n : ι) (v : Int) : Prop := ∃ m, Reach ch n m ∧ ch m = [] ∧ v ∈ raw m

theorem scopeBelow_step {ch : ι → List ι} {raw : ι → List Int} {n : ι} (hn : ch n ≠ []) (v : Int) :
    ScopeBelow ch raw n v ↔ ∃ c ∈ ch n, ScopeBelow ch raw c v := by
  constructor
  · rintro ⟨m, hm, hm0, hv⟩
    rcases Relation.ReflTransGen.cases_head hm with rfl | ⟨c, hc, hcm⟩
    · exact absurd hm0 hn
    · exact ⟨c, hc, m, hcm, hm0, hv⟩
  · rintro ⟨c, hc, m, hm, hm0, hv⟩
    exact ⟨m, Relation.ReflTransGen.head hc hm, hm0, hv⟩

theorem computeScope_fold {ch : ι → List ι} {ord : ι → List Int → List Int} (hord : ∀ s l, (ord s l).Perm l) (raw0 : ι → List Int) :
    ∀ (done l : List ι) (raw : ι → List Int), (∀ n ∈ done ++ l, ch n = [] → (raw0 n).Nodup) → ChildrenFirst ch (done ++ l) → (∀ n, ch n = [] → raw n = raw0 n) →
      (∀ n ∈ done, (raw n).Nodup ∧ ∀ v, v ∈ raw n ↔ ScopeBelow ch raw0 n v) →
      let raw' := l.foldl (fun raw s => if (ch s).length > 0 then Function.update raw s (ord s (keysOf raw (ch s))) else raw) raw
      (∀ n ∈ done ++ l, (raw' n).Nodup ∧ ∀ v, v ∈ raw' n ↔ ScopeBelow ch raw0 n v) ∧ ∀ n, n ∉ l ∨ ch n = [] → raw' n = raw n := by
  intro done l
  induction l generalizing done with
  | nil => intro raw _ _ _ hd; simpa using hd
  | cons s l ih =>
    intro raw hnd hcf hl hd
    have hch : ∀ c ∈ ch s, c ∈ done := hcf done s l rfl
    dsimp only [List.foldl_cons]
    have hs : ∀ raw', raw' = (if (ch s).length > 0 then Function.update raw s (ord s (keysOf raw (ch s))) else raw) →
        (∀ n, n ≠ s ∨ ch n = [] → raw' n = raw n) ∧ ((raw' s).Nodup ∧ ∀ v, v ∈ raw' s ↔ ScopeBelow ch raw0 s v) := by
      intro raw' e
      by_cases hpos : (ch s).length > 0
      · have hne : ch s ≠ [] := by intro h; rw [h] at hpos; simp at hpos
        rw [if_pos hpos] at e
        obtain ⟨k1, k2⟩ := keysOf_spec raw (ch s)
        refine ⟨?_, ?_, ?_⟩
        · intro n hn
          rw [e, Function.update_of_ne]
          rintro rfl
          rcases hn with hn | hn
          · exact hn rfl
          · exact hne hn
        · rw [e, Function.update_self]; exact (hord s _).nodup_iff.2 k1
        · intro v
          rw [e, Function.update_self, (hord s _).mem_iff, k2, scopeBelow_step hne]
          constructor
          · rintro ⟨c, hc, hv⟩; exact ⟨c, hc, ((hd c (hch c hc)).2 v).1 hv⟩
          · rintro ⟨c, hc, hv⟩; exact ⟨c, hc, ((hd c (hch c hc)).2 v).2 hv⟩
      · have hne : ch s = [] := List.length_eq_zero_iff.1 (by omega)
        rw [if_neg hpos] at e
        subst e
        refine ⟨fun _ _ => rfl, by rw [hl s hne]; exact hnd s (by simp) hne, fun v => ?_⟩
        rw [hl s hne]
        constructor
        · intro hv; exact ⟨s, Relation.ReflTransGen.refl, hne, hv⟩
        · rintro ⟨m, hm, hm0, hv⟩
          rcases Relation.ReflTransGen.cases_head hm with rfl | ⟨c, hc, _⟩
          · exact hv
          · rw [hne] at hc; exact absurd hc (by simp)
    generalize (if (ch s).length > 0 then Function.update raw s (ord s (keysOf raw (ch s))) else raw) = raw1 at hs
    obtain ⟨s1, s2⟩ := hs raw1 rfl
    obtain ⟨g1, g2⟩ := ih (done ++ [s]) raw1 (by simpa using hnd) (by simpa using hcf) (fun n hn => by rw [s1 n (Or.inr hn)]; exact hl n hn) (by
      intro n hn
      by_cases hns : n = s
      · subst hns; exact s2
      · have hn' : n ∈ done := by simpa [hns] using hn
        rw [s1 n (Or.inl hns)]; exact hd n hn')
    refine ⟨by simpa using g1, ?_⟩
    intro n hn
    rcases hn with hn | hn
    · simp only [List.mem_cons, not_or] at hn
      rw [g2 n (Or.inl hn.2), s1 n (Or.inl hn.1)]
    · rw [g2 n (Or.inr hn), s1 n (Or.inr hn)]

/-! ### Completeness and decomposability tests -/

theorem bumpAll_spec (D : List Int) : ∀ (us : List Int) (k : Int → Nat),
    bumpAll (fun u => if u ∈ D then some (k u) else none) us =
      if ∀ u ∈ us, u ∈ D then some (fun u => if u ∈ D then some (k u + us.count u) else none) else none := by
  intro us
  induction us with
  | nil => intro k; simp [bumpAll]
  | cons a us ih =>
    intro k
    rw [bumpAll]
    by_cases ha : a ∈ D
    · rw [if_neg (by simp [ha])]
      have e : bump (fun u => if u ∈ D then some (k u) else none) a = fun u => if u ∈ D then some ((fun u => if u = a then k a + 1 else k u) u) else none := by
        funext u
        unfold bump
        by_cases hu : u = a
        · subst hu; simp [ha]
        · simp [hu]
      rw [e, ih]
      have : (∀ u ∈ a :: us, u ∈ D) ↔ ∀ u ∈ us, u ∈ D := by simp [ha]
      simp only [this]
      split
      · congr 1
        funext u
        split
        · congr 1
          by_cases hu : u = a
          · subst hu; simp; omega
          · have : ¬ a = u := fun e => hu e.symm
            simp [hu, this]
        · rfl
      · rfl
    · rw [if_pos (by simp [ha]), if_neg (by intro h; exact ha (h a (by simp)))]

theorem bump_fold (sc : List Int) : sc.foldl bump (fun _ => none) = fun u => if u ∈ sc then some (sc.count u) else none := by
  have aux : ∀ (l D : List Int), l.foldl bump (fun u => if u ∈ D then some (D.count u) else none) = fun u => if u ∈ D ++ l then some ((D ++ l).count u) else none := by
    intro l
    induction l with
    | nil => intro D; simp
    | cons a l ih =>
      intro D
      rw [List.foldl_cons]
      have e : bump (fun u => if u ∈ D then some (D.count u) else none) a = fun u => if u ∈ D ++ [a] then some ((D ++ [a]).count u) else none := by
        funext u
        unfold bump
        by_cases hu : u = a
        · subst hu
          by_cases hd : u ∈ D
          · simp [hd]
          · simp [hd, List.count_eq_zero_of_not_mem hd]
        · have : ¬ a = u := fun e => hu e.symm
          simp [hu, this]
      rw [e, ih]; simp
  simpa using aux sc []

theorem completeAt_iff {raw : ι → List Int} {cs : List ι} {s : ι} (hs : (raw s).Nodup) (hc : ∀ c ∈ cs, (raw c).Nodup) :
    completeAt raw cs s = true ↔ ∀ c ∈ cs, ∀ v, v ∈ raw c ↔ v ∈ raw s := by
  classical
  unfold completeAt
  dsimp only
  rw [bump_fold]
  have aux : ∀ (cs : List ι) (k : Nat), (∀ c ∈ cs, (raw c).Nodup) →
      cs.foldlM (fun v c => if (raw c).length ≠ (raw s).length then none else bumpAll v (raw c)) (fun u => if u ∈ raw s then some k else none) =
        if ∀ c ∈ cs, ∀ v, v ∈ raw c ↔ v ∈ raw s then some (fun u => if u ∈ raw s then some (k + cs.length) else none) else none := by
    intro cs
    induction cs with
    | nil => intro k _; simp
    | cons c cs ih =>
      intro k hc
      rw [List.foldlM_cons]
      have hcn := hc c (by simp)
      by_cases hset : ∀ v, v ∈ raw c ↔ v ∈ raw s
      · have hp : (raw c).Perm (raw s) := (List.perm_ext_iff_of_nodup hcn hs).2 hset
        rw [if_neg (by simp [hp.length_eq]), bumpAll_spec (raw s) (raw c) (fun _ => k), if_pos (fun u hu => (hset u).1 hu)]
        simp only [Option.bind_eq_bind, Option.bind_some]
        have e : (fun u => if u ∈ raw s then some (k + (raw c).count u) else none) = fun u => if u ∈ raw s then some (k + 1) else none := by
          funext u
          by_cases hu : u ∈ raw s
          · rw [if_pos hu, if_pos hu, List.count_eq_one_of_mem hcn ((hset u).2 hu)]
          · rw [if_neg hu, if_neg hu]
        rw [e, ih (k + 1) (fun d hd => hc d (by simp [hd]))]
        have : (∀ d ∈ c :: cs, ∀ v, v ∈ raw d ↔ v ∈ raw s) ↔ ∀ d ∈ cs, ∀ v, v ∈ raw d ↔ v ∈ raw s := by
          constructor
          · intro h d hd; exact h d (by simp [hd])
          · intro h d hd
            rcases List.mem_cons.1 hd with rfl | hd
            · exact hset
            · exact h d hd
        simp only [this, List.length_cons]
        split
        · congr 1; funext u; split
          · congr 1; omega
          · rfl
        · rfl
      · rw [if_neg (c := ∀ d ∈ c :: cs, ∀ v, v ∈ raw d ↔ v ∈ raw s) (fun h => hset (h c (by simp)))]
        by_cases hlen : (raw c).length = (raw s).length
        · rw [if_neg (by simp [hlen]), bumpAll_spec (raw s) (raw c) (fun _ => k), if_neg]
          · rfl
          · intro hsub
            apply hset
            have hp : (raw c).Perm (raw s) := (List.subperm_of_subset hcn hsub).perm_of_length_le (by omega)
            exact fun v => hp.mem_iff
        · rw [if_pos hlen]; rfl
  have e1 : (fun u => if u ∈ raw s then some ((raw s).count u) else none) = fun u => if u ∈ raw s then some 1 else none := by
    funext u
    by_cases hu : u ∈ raw s
    · rw [if_pos hu, if_pos hu, List.count_eq_one_of_mem hs hu]
    · rw [if_neg hu, if_neg hu]
  rw [e1, aux cs 1 hc]
  by_cases h : ∀ c ∈ cs, ∀ v, v ∈ raw c ↔ v ∈ raw s
  · rw [if_pos h]
    refine ⟨fun _ => h, fun _ => ?_⟩
    rw [List.all_eq_true]
    intro u hu
    dsimp only
    rw [if_pos hu, Nat.add_comm]; exact beq_self_eq_true _
  · rw [if_neg h]; simp only [Bool.false_eq_true, false_iff]; exact h

theorem decomposableAt_iff {raw : ι → List Int} {cs : List ι} {s : ι} (hs : (raw s).Nodup) (hc : ∀ c ∈ cs, (raw c).Nodup)
    (hu : ∀ v, v ∈ raw s ↔ ∃ c ∈ cs, v ∈ raw c) :
    decomposableAt raw cs s = true ↔ cs.Pairwise (fun c d => ∀ v, ¬ (v ∈ raw c ∧ v ∈ raw d)) := by
  unfold decomposableAt
  dsimp only
  rw [bump_fold]
  have aux : ∀ (l : List ι) (k : Int → Nat), (∀ c ∈ l, ∀ v ∈ raw c, v ∈ raw s) →
      l.foldlM (fun v c => bumpAll v (raw c)) (fun u => if u ∈ raw s then some (k u) else none) =
        some (fun u => if u ∈ raw s then some (k u + (l.flatMap raw).count u) else none) := by
    intro l
    induction l with
    | nil => intro k _; simp
    | cons c l ih =>
      intro k hl
      rw [List.foldlM_cons, bumpAll_spec (raw s) (raw c) k, if_pos (hl c (by simp))]
      simp only [Option.bind_eq_bind, Option.bind_some]
      have := ih (fun u => k u + (raw c).count u) (fun d hd => hl d (by simp [hd]))
      rw [this]
      simp [List.flatMap_cons, List.count_append, Nat.add_assoc]
  rw [aux cs _ (fun c hc v hv => (hu v).2 ⟨c, hc, hv⟩)]
  have hmem : ∀ v, v ∈ cs.flatMap raw ↔ v ∈ raw s := by intro v; rw [List.mem_flatMap, hu]
  have hlen : ∀ (l : List ι) (n : Int), l.foldl (fun (n : Int) c => n - (raw c).length) n = n - (l.flatMap raw).length := by
    intro l
    induction l with
    | nil => intro n; simp
    | cons c l ih => intro n; rw [List.foldl_cons, ih, List.flatMap_cons, List.length_append]; push_cast; omega
  have hkey : (raw s).all (fun u => (if u ∈ raw s then some ((raw s).count u + (cs.flatMap raw).count u) else none) == some 2) = true ↔ (cs.flatMap raw).Nodup := by
    rw [List.all_eq_true, List.nodup_iff_count_eq_one]
    constructor
    · intro h u hu'
      have hus := (hmem u).1 hu'
      have := h u hus
      rw [if_pos hus, List.count_eq_one_of_mem hs hus] at this
      simp at this; omega
    · intro h u hus
      rw [if_pos hus, List.count_eq_one_of_mem hs hus, h u ((hmem u).2 hus)]; rfl
  have hnd : (cs.flatMap raw).Nodup ↔ cs.Pairwise (fun c d => ∀ v, ¬ (v ∈ raw c ∧ v ∈ raw d)) := by
    rw [List.nodup_flatMap]
    constructor
    · rintro ⟨_, h⟩; exact h.imp (fun hd v hv => hd hv.1 hv.2)
    · intro h; exact ⟨hc, h.imp (fun hd v h1 h2 => hd v ⟨h1, h2⟩)⟩
  rw [Bool.and_eq_true, hkey, ← hnd]
  constructor
  · exact fun h => h.1
  · intro h
    refine ⟨h, ?_⟩
    have hp : (cs.flatMap raw).Perm (raw s) := (List.perm_ext_iff_of_nodup h hs).2 hmem
    rw [hlen, hp.length_eq]; simp

theorem validLoop_root (ch : ι → List ι) (ty : ι → NodeType) (S : ι) (test : ι → Bool) (k : Nat) :
    validLoop ch ty S test (k + 2) [S] {S} = some (test S) := by
  have aux : ∀ (l : List ι), l.foldl (fun (p : List ι × Finset ι) c => if S ∉ p.2 ∧ ty c ≠ .leaf then (p.1 ++ [c], insert c p.2) else (p.1, p.2)) ([], {S}) = ([], {S}) := by
    intro l
    induction l with
    | nil => rfl
    | cons c l ih => rw [List.foldl_cons]; simpa using ih
  rw [validLoop]
  cases test S with
  | false => rfl
  | true =>
    rw [if_pos rfl]
    have := aux (ch S)
    rw [show (ch S).foldl (fun ((Q, V) : List ι × Finset ι) c => if S ∉ V ∧ ty c ≠ .leaf then (Q ++ [c], insert c V) else (Q, V)) ([], {S}) = ([], {S}) from this]
    rfl

end Graph
end Gospn
