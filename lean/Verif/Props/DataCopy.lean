/-
Theorems about copies of datasets and shuffling: C57 and C58, data/manipulate.go.
-/
import Verif.Props.Data

set_option linter.unusedSectionVars false
set_option linter.unusedSimpArgs false

namespace Gospn
open Spec

/-- C57 for `Copy` with labels. -/
theorem C57_copy {ord : MapOrder} {h : Mem} {D : List Addr} {xs : List VarSet} (L : List Int) (hh : Holds h D xs) (ho : OrdersOf ord xs) (hL : L.length = xs.length) :
    ∃ h' E, copyData ord h D (some L) = some (h', E, some L) ∧ Holds h' E xs ∧ Holds h' D xs ∧ NewMaps h h' E := by
  have hD := Holds.length hh
  refine ⟨_, _, ?_, holds_append h xs, Holds.mono hh (List.prefix_append _ _), newMaps_append h xs⟩
  simp only [copyData]
  rw [if_neg (by omega), copyAll_spec hh ho]
  rfl

/-- C57 for `Copy` without labels. -/
theorem C57_copy_unlabelled {ord : MapOrder} {h : Mem} {D : List Addr} {xs : List VarSet} (hh : Holds h D xs) (ho : OrdersOf ord xs) :
    ∃ h' E, copyData ord h D none = some (h', E, none) ∧ Holds h' E xs ∧ Holds h' D xs ∧ NewMaps h h' E := by
  refine ⟨_, _, ?_, holds_append h xs, Holds.mono hh (List.prefix_append _ _), newMaps_append h xs⟩
  simp only [copyData]
  rw [copyAll_spec hh ho]
  rfl

theorem copyWithout_fold (ms : VarSet) (u : Int) (d : Nat) : ∀ (ks : List Int) (h : Mem) (m : VarSet), h[d]? = some m → (∀ k ∈ ks, (ms k).isSome) →
    ks.foldlM (fun h' k => (ms k).bind fun v => if k ≠ u then Mem.put h' d k v else some h') h = some (h.set d fun i => if i ∈ ks ∧ i ≠ u then ms i else m i) := by
  intro ks
  induction ks with
  | nil =>
    intro h m hm _
    have hd : d < h.length := (List.getElem?_eq_some_iff.1 hm).1
    simp only [List.foldlM_nil, List.not_mem_nil, false_and, if_false]
    rw [show (fun i => m i) = m from rfl, show m = h[d] from (Option.some.inj ((List.getElem?_eq_getElem hd).symm.trans hm)).symm, List.set_getElem_self]
    rfl
  | cons k ks ih =>
    intro h m hm hk
    obtain ⟨v, hv⟩ := Option.isSome_iff_exists.1 (hk k (by simp))
    have hd : d < h.length := (List.getElem?_eq_some_iff.1 hm).1
    simp only [List.foldlM_cons, hv, Option.bind_some]
    by_cases hku : k = u
    · simp only [hku, ne_eq, not_true, if_false, bind, Option.bind_some]
      have := ih h m hm fun k hk' => hk k (by simp [hk'])
      refine this.trans ?_
      congr 2
      funext i
      by_cases hiu : i = u <;> simp [hiu]
    · simp only [ne_eq, hku, not_false_iff, if_true, Mem.put, hm, Option.map_some, bind, Option.bind_some]
      have := ih (h.set d (m.set k v)) (m.set k v) (by simp [hd]) fun k hk' => hk k (by simp [hk'])
      refine this.trans ?_
      rw [List.set_set]
      congr 2
      funext i
      by_cases hik : i = k
      · subst hik; by_cases hi : i ∈ ks <;> simp [hku, hv, VarSet.set, hi]
      · simp [VarSet.set, hik]

/-- Writing the entries of `x` other than `u`, in any order, into an empty map. -/
theorem copyWithout_spec {ord : MapOrder} {h : Mem} {s : Addr} {x : VarSet} (u : Int) (hs : h[s]? = some x) (ho : ∀ t, Enumerates x (ord t x)) :
    copyWithout ord u h s = some (h ++ [x.del u], h.length) := by
  have hlt : s < h.length := (List.getElem?_eq_some_iff.1 hs).1
  have he := ho (h.length + 1)
  simp only [copyWithout, Mem.new]
  rw [List.getElem?_append_left hlt, hs]
  simp only [Option.bind_some, List.length_append, List.length_cons, List.length_nil, zero_add]
  rw [copyWithout_fold x u h.length _ _ VarSet.empty (by simp) (fun k hk => (he.2 k).1 hk)]
  simp only [Option.map_some]
  congr 2
  rw [List.set_append_right _ _ (le_refl _)]
  simp only [Nat.sub_self, List.set_cons_zero]
  congr 2
  funext i
  simp only [VarSet.del]
  by_cases h1 : i = u
  · simp [h1, VarSet.empty]
  · by_cases h2 : i ∈ ord (h.length + 1) x
    · simp [h1, h2]
    · have := mt (he.2 i).2 h2
      simp only [h1, h2, false_and, if_false, VarSet.empty]
      cases hm : x i with
      | none => rfl
      | some v => exact absurd (by simp [hm]) this

theorem zip_set {α β : Type} : ∀ (l : List α) (m : List β) (i : Nat) (a : α) (b : β), (l.set i a).zip (m.set i b) = (l.zip m).set i (a, b) := by
  intro l
  induction l with
  | nil => intro m i a b; simp
  | cons x l ih =>
    intro m i a b
    cases m with
    | nil => simp
    | cons y m =>
      cases i with
      | zero => simp
      | succ i => simp [ih]

/-- C57 for `SubtractVariable`. -/
theorem C57_subtractVariable {ord : MapOrder} {h : Mem} {D : List Addr} {xs : List VarSet} (u : Int) (hh : Holds h D xs) (ho : OrdersOf ord xs) :
    ∃ h' E, subtractVariable ord h D u = some (h', E) ∧ Holds h' E (xs.map (·.del u)) ∧ Holds h' D xs ∧ NewMaps h h' E := by
  have hf : List.Forall₂ (fun b y => ∀ h', h <+: h' → copyWithout ord u h' b = some (h' ++ [y], h'.length)) D (xs.map (·.del u)) := by
    have := Holds.forall₂ hh
    rw [List.forall₂_map_right_iff]
    rw [List.forall₂_iff_get] at this ⊢
    refine ⟨this.1, fun i hi hi' h' hp => ?_⟩
    exact copyWithout_spec u (prefix_get hp (this.2 i hi hi')) fun t => ho t _ (List.get_mem _ _)
  have := allocAll hf [] []
  refine ⟨h ++ xs.map (·.del u), List.range' h.length xs.length, ?_, ?_, Holds.mono hh (List.prefix_append _ _), ?_⟩
  · simpa [subtractVariable] using this
  · have := holds_append h (xs.map (·.del u))
    simpa using this
  · have := newMaps_append h (xs.map (·.del u))
    simpa using this

theorem goSwap_spec {α : Type} (l : List α) (i j : Nat) (hi : i < l.length) (hj : j < l.length) : ∃ l', goSwap l i j = some l' ∧ l'.Perm l ∧ l'.length = l.length := by
  refine ⟨(l.set i l[j]).set j l[i], by simp [goSwap, hi, hj], ?_, by simp⟩
  exact List.set_set_perm hi hj

/-- C58 with labels: `rand.Shuffle` calls the given function with positions below the length. -/
theorem C58_shuffle (swaps : List (Nat × Nat)) (D : List Addr) (L : List Int) (hL : L.length = D.length) (hs : ∀ s ∈ swaps, s.1 < D.length ∧ s.2 < D.length) :
    ∃ D' L', shuffle swaps D (some L) = some (D', some L') ∧ D'.length = D.length ∧ L'.length = L.length ∧ (D'.zip L').Perm (D.zip L) := by
  simp only [shuffle]
  rw [if_neg (by omega)]
  induction swaps generalizing D L with
  | nil => exact ⟨D, L, rfl, rfl, rfl, .refl _⟩
  | cons s swaps ih =>
    obtain ⟨hi, hj⟩ := hs s (by simp)
    have e1 : goSwap D s.1 s.2 = some ((D.set s.1 D[s.2]).set s.2 D[s.1]) := by simp [goSwap, hi, hj]
    have e2 : goSwap L s.1 s.2 = some ((L.set s.1 (L[s.2]'(by omega))).set s.2 (L[s.1]'(by omega))) := by
      simp [goSwap, hL, hi, hj]
    obtain ⟨D', L', h1, h2, h3, h4⟩ := ih ((D.set s.1 D[s.2]).set s.2 D[s.1]) ((L.set s.1 (L[s.2]'(by omega))).set s.2 (L[s.1]'(by omega))) (by simp [hL]) (by
      intro t ht; simpa using hs t (by simp [ht]))
    refine ⟨D', L', ?_, by simpa using h2, by simpa using h3, h4.trans ?_⟩
    · simp only [List.foldlM_cons, e1, e2, Option.bind_some, Option.map_some, bind]
      exact h1
    · rw [zip_set, zip_set]
      have hl : (D.zip L).length = D.length := by simp [hL]
      have := List.set_set_perm (as := D.zip L) (i := s.1) (j := s.2) (by omega) (by omega)
      simpa using this

/-- C58 without labels. -/
theorem C58_shuffle_unlabelled (swaps : List (Nat × Nat)) (D : List Addr) (hs : ∀ s ∈ swaps, s.1 < D.length ∧ s.2 < D.length) :
    ∃ D', shuffle swaps D none = some (D', none) ∧ D'.Perm D := by
  simp only [shuffle]
  induction swaps generalizing D with
  | nil => exact ⟨D, rfl, .refl _⟩
  | cons s swaps ih =>
    obtain ⟨hi, hj⟩ := hs s (by simp)
    obtain ⟨l', e1, e2, e3⟩ := goSwap_spec D s.1 s.2 hi hj
    obtain ⟨D', h1, h2⟩ := ih l' (by intro t ht; rw [e3]; exact hs t (by simp [ht]))
    exact ⟨D', by simp only [List.foldlM_cons, e1, bind, Option.bind_some]; exact h1, h2.trans e2⟩

/-- C57 and C58 on five instances. -/
example : ∃ h' E, copyData (fun _ _ => [1, 0]) five (List.range 5) (some [0, 1, 0, 1, 2]) = some (h', E, some [0, 1, 0, 1, 2]) ∧ Holds h' E five ∧ NewMaps five h' E := by
  obtain ⟨h', E, h1, h2, _, h3⟩ := C57_copy [0, 1, 0, 1, 2] five_holds five_orders rfl
  exact ⟨h', E, h1, h2, h3⟩

example : ∃ D' L', shuffle [(4, 2), (3, 3), (2, 0)] (List.range 5) (some [5, 6, 7, 8, 9]) = some (D', some L') ∧ (D'.zip L').Perm ((List.range 5).zip [5, 6, 7, 8, 9]) := by
  obtain ⟨D', L', h1, _, _, h2⟩ := C58_shuffle [(4, 2), (3, 3), (2, 0)] (List.range 5) [5, 6, 7, 8, 9] rfl (by decide)
  exact ⟨D', L', h1, h2⟩

end Gospn
