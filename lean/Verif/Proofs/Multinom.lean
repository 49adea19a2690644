import Verif.Model.Multinom
import Verif.Spec.Multinom
import Verif.Proofs.Log
import Verif.Proofs.Structure
/-
The constructors of multinomial leaves.
-/
namespace Gospn
open Spec GoFloat

/-- Folding over a list with indices, with what is known about the part dealt with. -/
theorem foldl_zipIdx_inv {α β : Type} (l : List α) (f : β → α × Nat → β) (P : List α → β → Prop)
    (hstep : ∀ done a r b, l = done ++ a :: r → P done b → P (done ++ [a]) (f b (a, done.length))) (b : β) (h0 : P [] b) : P l (l.zipIdx.foldl f b) := by
  have aux : ∀ (r done : List α) (b : β), l = done ++ r → P done b → P l ((r.zipIdx done.length).foldl f b) := by
    intro r
    induction r with
    | nil => intro done b e h; simpa [e] using h
    | cons a r ih =>
      intro done b e h
      rw [List.zipIdx_cons, List.foldl_cons]
      have := ih (done ++ [a]) (f b (a, done.length)) (by simp [e]) (hstep done a r b e h)
      simpa using this
  simpa using aux l [] b rfl h0

theorem computeMode_spec (q : List ℝ) (h0 : ∀ x ∈ q, 0 ≤ x) (hp : ∃ x ∈ q, 0 < x) :
    ∃ (k : Nat) (m : ℝ), computeMode (q.map XR.fin) = (k, .fin m) ∧ q[k]? = some m ∧ ∀ x ∈ q, x ≤ m := by
  have := foldl_zipIdx_inv (q.map XR.fin) (fun (s : Nat × XR) (p : XR × Nat) => if lt s.2 p.1 then (p.2, p.1) else (s.1, s.2))
    (fun done s => ∃ (r : List ℝ) (m : ℝ), done = r.map XR.fin ∧ s.2 = .fin m ∧ 0 ≤ m ∧ (∀ x ∈ r, x ≤ m) ∧ ((s.1 = 0 ∧ m = 0) ∨ r[s.1]? = some m)) (by
      rintro done a rest ⟨i, y⟩ e ⟨r, m, rfl, rfl, hm, hle, hi⟩
      obtain ⟨q1, q2, rfl, e1, e2⟩ := List.map_eq_append_iff.1 e
      obtain ⟨a', q3, rfl, rfl, rfl⟩ := List.map_eq_cons_iff.1 e2
      have hr : q1 = r := List.map_injective_iff.2 (fun _ _ h => XR.fin.inj h) e1
      subst hr
      have ha := h0 a' (by simp)
      by_cases hlt : m < a'
      · refine ⟨q1 ++ [a'], a', by simp, ?_, ha, ?_, Or.inr ?_⟩
        · simp [hlt]
        · intro x hx
          rcases List.mem_append.1 hx with h | h
          · exact (hle x h).trans hlt.le
          · simp at h; exact h.le
        · simp [hlt]
      · refine ⟨q1 ++ [a'], m, by simp, ?_, hm, ?_, ?_⟩
        · simp [hlt]
        · intro x hx
          rcases List.mem_append.1 hx with h | h
          · exact hle x h
          · simp at h; rw [h]; exact not_lt.1 hlt
        · rcases hi with ⟨rfl, rfl⟩ | hi
          · exact Or.inl ⟨by simp [hlt], rfl⟩
          · refine Or.inr ?_
            obtain ⟨hlt', _⟩ := List.getElem?_eq_some_iff.1 hi
            have hf : lt (XR.fin m) (XR.fin a') = false := by simp [XR.lt, hlt]
            simp only [hf, Bool.false_eq_true, if_false]
            rw [List.getElem?_append_left hlt']; exact hi)
    (0, ofInt 0) ⟨[], 0, by simp, by simp, le_refl _, by simp, Or.inl ⟨rfl, rfl⟩⟩
  obtain ⟨r, m, e, h1, h2, h3, h4⟩ := this
  have hr : q = r := List.map_injective_iff.2 (fun _ _ h => XR.fin.inj h) e
  subst hr
  refine ⟨(computeMode (q.map XR.fin)).1, m, ?_, ?_, h3⟩
  · exact Prod.ext rfl h1
  · rcases h4 with ⟨_, rfl⟩ | h4
    · obtain ⟨x, hx, hpos⟩ := hp
      exact absurd (h3 x hx) (not_le.2 hpos)
    · exact h4

theorem modeScan_spec (q : List ℝ) (h0 : ∀ x ∈ q, 0 ≤ x) (hq : q ≠ []) :
    ∃ (mi : Nat) (m : ℝ) (miv : List Nat), modeScan (q.map XR.fin) = (.fin m, mi, miv) ∧ q[mi]? = some m ∧ (∀ x ∈ q, x ≤ m) ∧ (∀ j ∈ miv, q[j]? = some m) ∧
      ∀ j, q[j]? = some m → j ∈ miv := by
  have := foldl_zipIdx_inv (q.map XR.fin) (fun (s : XR × Nat × List Nat) (p : XR × Nat) =>
      if lt s.1 p.1 then (p.1, p.2, [p.2]) else if eq p.1 s.1 then (s.1, s.2.1, s.2.2 ++ [p.2]) else (s.1, s.2.1, s.2.2))
    (fun done s => ∃ (r : List ℝ), done = r.map XR.fin ∧ ((r = [] ∧ s = (ofInt (-1), 0, [])) ∨ ∃ m : ℝ, s.1 = .fin m ∧ 0 ≤ m ∧ (∀ x ∈ r, x ≤ m) ∧ r[s.2.1]? = some m ∧
      (∀ j ∈ s.2.2, r[j]? = some m) ∧ ∀ j, r[j]? = some m → j ∈ s.2.2)) (by
      rintro done a rest ⟨y, mi, miv⟩ e ⟨r, rfl, hs⟩
      obtain ⟨q1, q2, rfl, e1, e2⟩ := List.map_eq_append_iff.1 e
      obtain ⟨a', q3, rfl, rfl, rfl⟩ := List.map_eq_cons_iff.1 e2
      have hr : q1 = r := List.map_injective_iff.2 (fun _ _ h => XR.fin.inj h) e1
      subst hr
      have ha := h0 a' (by simp)
      refine ⟨q1 ++ [a'], by simp, Or.inr ?_⟩
      rcases hs with ⟨rfl, hs⟩ | ⟨m, hy, hm, hle, hi, hin, hout⟩
      · simp only [Prod.mk.injEq] at hs
        obtain ⟨rfl, rfl, rfl⟩ := hs
        have : (-1 : ℝ) < a' := by linarith
        refine ⟨a', ?_, ha, by simp, ?_, ?_, ?_⟩
        · simp [this]
        · simp [this]
        · simp [this]
        · intro j hj
          simp only [List.nil_append] at hj
          have : j = 0 := by
            obtain ⟨h, _⟩ := List.getElem?_eq_some_iff.1 hj
            simp at h; exact h
          subst this; simp [show (-1 : ℝ) < a' by linarith]
      · simp only at hy hi hin hout
        subst hy
        rcases lt_trichotomy m a' with hlt | heq | hgt
        · refine ⟨a', by simp [hlt], ha, ?_, by simp [hlt], ?_, ?_⟩
          · intro x hx
            rcases List.mem_append.1 hx with h | h
            · exact (hle x h).trans hlt.le
            · simp at h; exact h.le
          · intro j hj; simp [hlt] at hj; subst hj; simp
          · intro j hj
            by_cases hjl : j < q1.length
            · rw [List.getElem?_append_left hjl] at hj
              have := hle a' (List.mem_of_getElem? hj)
              exact absurd this (not_le.2 hlt)
            · obtain ⟨h, _⟩ := List.getElem?_eq_some_iff.1 hj
              have : j = q1.length := by simp at h; omega
              simp [hlt, this]
        · subst heq
          refine ⟨m, by simp, hm, ?_, ?_, ?_, ?_⟩
          · intro x hx
            rcases List.mem_append.1 hx with h | h
            · exact hle x h
            · simp at h; exact h.le
          · obtain ⟨h, _⟩ := List.getElem?_eq_some_iff.1 hi
            have hf : lt (XR.fin m) (XR.fin m) = false := by simp [XR.lt]
            have hg : eq (XR.fin m) (XR.fin m) = true := by simp
            simp only [hf, hg, Bool.false_eq_true, if_false, if_true]
            rw [List.getElem?_append_left h]; exact hi
          · intro j hj
            simp at hj
            rcases hj with hj | rfl
            · obtain ⟨h, _⟩ := List.getElem?_eq_some_iff.1 (hin j hj)
              rw [List.getElem?_append_left h]; exact hin j hj
            · simp
          · intro j hj
            by_cases hjl : j < q1.length
            · rw [List.getElem?_append_left hjl] at hj
              simp [hout j hj]
            · obtain ⟨h, _⟩ := List.getElem?_eq_some_iff.1 hj
              have : j = q1.length := by simp at h; omega
              simp [this]
        · have hn : ¬ m < a' := not_lt.2 hgt.le
          have hne : ¬ a' = m := hgt.ne
          refine ⟨m, by simp [hn, hne], hm, ?_, ?_, ?_, ?_⟩
          · intro x hx
            rcases List.mem_append.1 hx with h | h
            · exact hle x h
            · simp at h; rw [h]; exact hgt.le
          · obtain ⟨h, _⟩ := List.getElem?_eq_some_iff.1 hi
            have hf : lt (XR.fin m) (XR.fin a') = false := by simp [XR.lt, hn]
            have hg : eq (XR.fin a') (XR.fin m) = false := by simp [XR.eq, hne]
            simp only [hf, hg, Bool.false_eq_true, if_false]
            rw [List.getElem?_append_left h]; exact hi
          · intro j hj
            simp [hn, hne] at hj
            obtain ⟨h, _⟩ := List.getElem?_eq_some_iff.1 (hin j hj)
            rw [List.getElem?_append_left h]; exact hin j hj
          · intro j hj
            by_cases hjl : j < q1.length
            · rw [List.getElem?_append_left hjl] at hj
              simp [hn, hne, hout j hj]
            · obtain ⟨h, hj⟩ := List.getElem?_eq_some_iff.1 hj
              have : j = q1.length := by simp at h; omega
              subst this
              simp at hj
              exact absurd hj hne)
    (ofInt (-1), 0, []) ⟨[], by simp, Or.inl ⟨rfl, rfl⟩⟩
  obtain ⟨r, e, h⟩ := this
  have hr : q = r := List.map_injective_iff.2 (fun _ _ h => XR.fin.inj h) e
  subst hr
  rcases h with ⟨h, _⟩ | ⟨m, h1, h2, h3, h4, h5, h6⟩
  · exact absurd h hq
  · exact ⟨(modeScan (q.map XR.fin)).2.1, m, (modeScan (q.map XR.fin)).2.2, Prod.ext h1 rfl, h4, h3, h5, h6⟩

theorem withMode_spec (rand : Nat → Nat) (hrand : ∀ n, 0 < n → rand n < n) (v : Int) (q : List ℝ) (h0 : ∀ x ∈ q, 0 ≤ x) (hq : q ≠ []) :
    ∃ l, withMode rand v (q.map XR.fin) = some l ∧ TrueMode l v q := by
  obtain ⟨mi, m, miv, e, h1, h2, h3, _⟩ := modeScan_spec q h0 hq
  unfold withMode
  rw [e]
  dsimp only
  split
  · rename_i hlen
    have hb := hrand miv.length (by omega)
    refine ⟨.multinomial [v] v (q.map XR.fin) miv[rand miv.length] (.fin m), by rw [List.getElem?_eq_getElem hb]; rfl, [v], _, m, rfl, ?_, h2⟩
    exact h3 _ (List.getElem_mem hb)
  · exact ⟨_, rfl, [v], mi, m, rfl, h1, h2⟩

theorem smoothed_spec (counts : List Int) (h : ∀ c ∈ counts, 0 ≤ c) (hne : counts ≠ []) :
    (smoothed counts : List XR) = (counts.map (fun c : Int => ((c : ℝ) + 1) / ((counts.sum : ℝ) + counts.length))).map XR.fin := by
  have hs : ∀ (l : List Int) (a : ℝ), l.foldl (fun (s : XR) c => add s (add (ofInt 1) (ofInt c))) (.fin a) = .fin (a + l.sum + l.length) := by
    intro l
    induction l with
    | nil => intro a; simp
    | cons c l ih =>
      intro a
      rw [List.foldl_cons]
      have : add (XR.fin a) (add (ofInt 1) (ofInt c)) = XR.fin (a + (1 + c)) := by simp
      rw [this, ih]
      congr 1
      push_cast [List.sum_cons, List.length_cons]; ring
  have hpos : 0 < (counts.sum : ℝ) + counts.length := by
    have h1 : (0 : ℤ) ≤ counts.sum := List.sum_nonneg h
    have h2 : 0 < counts.length := List.length_pos_iff.2 hne
    have h1' : (0 : ℝ) ≤ (counts.sum : ℝ) := by exact_mod_cast h1
    have h2' : (0 : ℝ) < (counts.length : ℝ) := by exact_mod_cast h2
    linarith
  unfold smoothed
  have h00 : (ofInt 0 : XR) = .fin 0 := by simp
  rw [h00, hs]
  dsimp only
  rw [List.map_map]
  apply List.map_congr_left
  intro c _
  have hne' : (0 : ℝ) + counts.sum + counts.length ≠ 0 := by rw [zero_add]; exact hpos.ne'
  show XR.div (XR.fin ((1 + c : ℤ) : ℝ)) (XR.fin (0 + counts.sum + counts.length)) = _
  rw [XR.div_fin hne']
  simp only [Function.comp, XR.fin.injEq]
  push_cast; rw [zero_add, add_comm]

theorem smoothed_dist (counts : List Int) (h : ∀ c ∈ counts, 0 ≤ c) (hne : counts ≠ []) :
    (∀ x ∈ counts.map (fun c : Int => ((c : ℝ) + 1) / ((counts.sum : ℝ) + counts.length)), 0 < x) ∧
      (counts.map (fun c : Int => ((c : ℝ) + 1) / ((counts.sum : ℝ) + counts.length))).sum = 1 := by
  have hpos : 0 < (counts.sum : ℝ) + counts.length := by
    have h1 : (0 : ℤ) ≤ counts.sum := List.sum_nonneg h
    have h2 : 0 < counts.length := List.length_pos_iff.2 hne
    have h1' : (0 : ℝ) ≤ (counts.sum : ℝ) := by exact_mod_cast h1
    have h2' : (0 : ℝ) < (counts.length : ℝ) := by exact_mod_cast h2
    linarith
  refine ⟨?_, ?_⟩
  · intro x hx
    obtain ⟨c, hc, rfl⟩ := List.mem_map.1 hx
    have : (0 : ℝ) ≤ (c : ℝ) := by exact_mod_cast h c hc
    positivity
  · have e : ∀ l : List Int, (l.map (fun c : Int => (c : ℝ) + 1)).sum = (l.sum : ℝ) + l.length := by
      intro l
      induction l with
      | nil => simp
      | cons c l ih => simp only [List.map_cons, List.sum_cons, ih, List.length_cons]; push_cast; ring
    have := sum_map_div (counts.map (fun c : Int => (c : ℝ) + 1)) ((counts.sum : ℝ) + counts.length)
    rw [List.map_map] at this
    have hh : counts.map (fun c : Int => ((c : ℝ) + 1) / ((counts.sum : ℝ) + counts.length)) =
      counts.map ((fun x => x / ((counts.sum : ℝ) + counts.length)) ∘ fun c : Int => (c : ℝ) + 1) := rfl
    rw [hh, this, e, div_self hpos.ne']

end Gospn
