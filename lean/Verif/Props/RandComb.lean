/-
Theorems about `RandomComb`: C110.
-/
import Verif.Model.RandComb
import Mathlib.Data.List.ProdSigma
import Mathlib.Logic.Equiv.Fintype
import Mathlib.GroupTheory.Perm.Basic
import Mathlib.Data.Fintype.Perm
import Mathlib.Data.List.Perm.Basic
import Mathlib.Tactic.Ring
import Mathlib.Tactic.Linarith

set_option linter.unusedSectionVars false
set_option linter.unusedSimpArgs false

namespace Gospn

/-- `D` has `m` different cells of the `u` by `v` grid. -/
structure Spec.IsSelection (u v m : Nat) (D : List (Int × Int)) : Prop where
  length : D.length = m
  nodup : D.Nodup
  inside : ∀ p ∈ D, 0 ≤ p.1 ∧ p.1 < u ∧ 0 ≤ p.2 ∧ p.2 < v
open Spec

theorem combCells_nat (u v : Nat) : combCells u v = (List.range u ×ˢ List.range v).map fun p => ((p.1 : Int), (p.2 : Int)) := by
  unfold combCells
  have h : ((List.range (u : Int).toNat).flatMap fun (i : Nat) => (List.range (v : Int).toNat).map fun (j : Nat) => ((i : Int), (j : Int))) =
      (List.range u ×ˢ List.range v).map fun p => ((p.1 : Int), (p.2 : Int)) := by
    simp [SProd.sprod, List.product, List.map_flatMap, Function.comp_def]
  rw [h]
  have : ((u : Int) * v).toNat = u * v := by rw [← Nat.cast_mul, Int.toNat_natCast]
  simp [List.length_product, this]

theorem combCells_length (u v : Nat) : (combCells u v).length = u * v := by
  rw [combCells_nat, List.length_map, List.length_product]; simp

theorem combCells_nodup (u v : Nat) : (combCells u v).Nodup := by
  rw [combCells_nat]
  refine (List.nodup_map_iff fun a b h => ?_).2 (List.nodup_range.product List.nodup_range)
  simp only [Prod.mk.injEq, Nat.cast_inj] at h
  exact Prod.ext h.1 h.2

theorem mem_combCells (u v : Nat) (p : Int × Int) : p ∈ combCells u v ↔ 0 ≤ p.1 ∧ p.1 < u ∧ 0 ≤ p.2 ∧ p.2 < v := by
  rw [combCells_nat, List.mem_map]
  constructor
  · rintro ⟨⟨a, b⟩, hq, rfl⟩
    rw [List.mem_product] at hq
    simp at hq
    simp
    omega
  · rintro ⟨h1, h2, h3, h4⟩
    refine ⟨(p.1.toNat, p.2.toNat), List.mem_product.2 ⟨?_, ?_⟩, ?_⟩
    · simp; omega
    · simp; omega
    · exact Prod.ext (by simp [h1]) (by simp [h3])

theorem mapM_range {α : Type} (f : Nat → Option α) : ∀ (m : Nat) (D : List α), ((List.range m).mapM f = some D ↔ D.length = m ∧ ∀ i (h : i < D.length), f i = some D[i]) := by
  intro m
  induction m with
  | zero =>
    intro D
    simp only [List.range_zero, List.mapM_nil]
    constructor
    · intro h; cases h; simp
    · rintro ⟨h, _⟩; rw [List.length_eq_zero_iff.1 h]; rfl
  | succ m ih =>
    intro D
    rw [List.range_succ, List.mapM_append]
    constructor
    · intro h
      cases h1 : (List.range m).mapM f with
      | none => rw [h1] at h; cases h
      | some D1 =>
        rw [h1] at h
        cases h2 : f m with
        | none => simp [h2] at h
        | some x =>
          simp [h2] at h
          subst h
          obtain ⟨g1, g2⟩ := (ih D1).1 h1
          refine ⟨by simp [g1], fun i hi => ?_⟩
          by_cases hm : i < D1.length
          · rw [List.getElem_append_left hm]; exact g2 i hm
          · have : i = m := by simp at hi; omega
            subst this
            rw [List.getElem_append_right (by omega)]
            simpa using h2
    · rintro ⟨h1, h2⟩
      have hne : D ≠ [] := by rintro rfl; simp at h1
      obtain ⟨D1, x, rfl⟩ : ∃ D1 x, D = D1 ++ [x] := ⟨D.dropLast, D.getLast hne, (List.dropLast_append_getLast hne).symm⟩
      have hl : D1.length = m := by simpa using h1
      have g1 : (List.range m).mapM f = some D1 := (ih D1).2 ⟨hl, fun i hi => by
        rw [h2 i (by simp; omega), List.getElem_append_left hi]⟩
      have g2 : f m = some x := by
        rw [h2 m (by simp; omega), List.getElem_append_right (by omega)]
        simp
      rw [g1]
      simp [g2]

theorem randomComb_nat (u v m : Nat) (K : List Nat) (D : List (Int × Int)) : randomComb u v m K = some D ↔
    D.length = m ∧ ∀ i (h : i < D.length), (K[i]?).bind (fun k => (combCells u v)[k]?) = some D[i] := by
  unfold randomComb
  rw [if_neg (by push Not; exact ⟨by positivity, by positivity⟩)]
  exact mapM_range _ _ D

/-- C110: with `m` at most `u * v`, the result is a selection of `m` different cells, whatever permutation is drawn. -/
theorem C110_selection (u v m : Nat) (h : m ≤ u * v) (K : List Nat) (hK : K.Perm (List.range (u * v))) : ∃ D, randomComb u v m K = some D ∧ IsSelection u v m D := by
  have hlen : K.length = u * v := by simpa using hK.length_eq
  have hlt : ∀ i (hi : i < K.length), K[i] < (combCells u v).length := by
    intro i hi
    rw [combCells_length]
    have := hK.mem_iff.1 (List.getElem_mem hi)
    simpa using this
  let D : List (Int × Int) := (List.finRange m).map fun i => (combCells u v)[K[i.1]'(by omega)]'(hlt _ _)
  refine ⟨D, (randomComb_nat u v m K D).2 ⟨by simp [D], fun i hi => ?_⟩, by simp [D], ?_, ?_⟩
  · have him : i < m := by simpa [D] using hi
    rw [List.getElem?_eq_getElem (by omega), Option.bind_some, List.getElem?_eq_getElem (hlt i (by omega))]
    simp [D]
  · refine (List.nodup_map_iff_inj_on (List.nodup_finRange m)).2 fun i _ j _ e => ?_
    have e1 := (combCells_nodup u v).getElem_inj_iff.1 e
    have hKn : K.Nodup := hK.nodup_iff.2 List.nodup_range
    exact Fin.ext (hKn.getElem_inj_iff.1 e1)
  · intro p hp
    obtain ⟨i, _, rfl⟩ := List.mem_map.1 hp
    exact (mem_combCells u v _).1 (List.getElem_mem _)

/-- The values of a permutation, as `Random.Perm` returns them. -/
def permList {n : Nat} (σ : Equiv.Perm (Fin n)) : List Nat := List.ofFn fun i => (σ i).1

theorem permList_perm {n : Nat} (σ : Equiv.Perm (Fin n)) : (permList σ).Perm (List.range n) := by
  refine (List.perm_ext_iff_of_nodup ?_ List.nodup_range).2 fun a => ?_
  · exact List.nodup_ofFn.2 fun i j h => σ.injective (Fin.ext h)
  · simp only [permList, List.mem_ofFn, List.mem_range]
    constructor
    · rintro ⟨i, rfl⟩; exact (σ i).2
    · intro h; exact ⟨σ.symm ⟨a, h⟩, by simp⟩

theorem randomComb_iff (u v m : Nat) (D : List (Int × Int)) (hD : IsSelection u v m D) :
    ∃ f : Fin m → Fin (u * v), Function.Injective f ∧ ∀ σ : Equiv.Perm (Fin (u * v)), randomComb u v m (permList σ) = some D ↔ ∃ h : m ≤ u * v, ∀ i : Fin m, σ ⟨i.1, by omega⟩ = f i := by
  have hex : ∀ i : Fin m, ∃ k : Fin (u * v), (combCells u v)[k.1]'(by rw [combCells_length]; exact k.2) = D[i.1]'(by rw [hD.length]; exact i.2) := by
    intro i
    have := (mem_combCells u v _).2 (hD.inside _ (List.getElem_mem (l := D) (n := i.1) (by rw [hD.length]; exact i.2)))
    obtain ⟨k, hk, e⟩ := List.mem_iff_getElem.1 this
    exact ⟨⟨k, by rw [combCells_length] at hk; exact hk⟩, e⟩
  choose f hf using hex
  have hinj : Function.Injective f := by
    intro i j h
    have : D[i.1]'(by rw [hD.length]; exact i.2) = D[j.1]'(by rw [hD.length]; exact j.2) := by rw [← hf i, ← hf j]; simp [h]
    exact Fin.ext (hD.nodup.getElem_inj_iff.1 this)
  have hm : m ≤ u * v := by simpa using Fintype.card_le_of_injective f hinj
  refine ⟨f, hinj, fun σ => ?_⟩
  rw [randomComb_nat]
  constructor
  · rintro ⟨_, h⟩
    refine ⟨hm, fun i => ?_⟩
    have h1 := h i.1 (by rw [hD.length]; exact i.2)
    rw [List.getElem?_eq_getElem (by simp [permList]; omega), Option.bind_some] at h1
    obtain ⟨_, e⟩ := List.getElem?_eq_some_iff.1 h1
    rw [← hf i] at e
    have := (combCells_nodup u v).getElem_inj_iff.1 e
    simp [permList] at this
    exact Fin.ext this
  · rintro ⟨_, h⟩
    refine ⟨hD.length, fun i hi => ?_⟩
    rw [hD.length] at hi
    rw [List.getElem?_eq_getElem (by simp [permList]; omega), Option.bind_some]
    have := h ⟨i, hi⟩
    rw [List.getElem?_eq_some_iff]
    refine ⟨by simp [permList, combCells_length], ?_⟩
    have e := hf ⟨i, hi⟩
    rw [← this] at e
    simpa [permList] using e

/-- C110: every selection is as likely as every other: it comes from as many of the permutations. -/
theorem C110_uniform (u v m : Nat) (D D' : List (Int × Int)) (hD : IsSelection u v m D) (hD' : IsSelection u v m D') :
    Fintype.card {σ : Equiv.Perm (Fin (u * v)) // randomComb u v m (permList σ) = some D} = Fintype.card {σ : Equiv.Perm (Fin (u * v)) // randomComb u v m (permList σ) = some D'} := by
  obtain ⟨f, hf, h⟩ := randomComb_iff u v m D hD
  obtain ⟨g, hg, h'⟩ := randomComb_iff u v m D' hD'
  classical
  let e : {x // x ∈ Set.range f} ≃ {x // x ∈ Set.range g} := (Equiv.ofInjective f hf).symm.trans (Equiv.ofInjective g hg)
  let τ : Equiv.Perm (Fin (u * v)) := e.extendSubtype
  have hτ : ∀ i, τ (f i) = g i := by
    intro i
    have := Equiv.extendSubtype_apply_of_mem e (f i) ⟨i, rfl⟩
    rw [show τ (f i) = e.extendSubtype (f i) from rfl, this]
    have e2 : (Equiv.ofInjective f hf).symm ⟨f i, ⟨i, rfl⟩⟩ = i := by
      rw [Equiv.symm_apply_eq]; rfl
    show ((Equiv.ofInjective g hg) ((Equiv.ofInjective f hf).symm ⟨f i, ⟨i, rfl⟩⟩)).1 = g i
    rw [e2]; rfl
  refine Fintype.card_congr (Equiv.subtypeEquiv (Equiv.mulLeft τ) fun σ => ?_)
  rw [h σ, h']
  refine exists_congr fun hm => forall_congr' fun i => ?_
  rw [Equiv.coe_mulLeft, Equiv.Perm.mul_apply, ← hτ i, τ.injective.eq_iff]

/-- C110: more cells than there are make it panic. -/
theorem C110_panics (u v m : Nat) (h : u * v < m) (K : List Nat) (hK : K.Perm (List.range (u * v))) : randomComb u v m K = none := by
  rcases hr : randomComb u v m K with _ | D
  · rfl
  · obtain ⟨h1, h2⟩ := (randomComb_nat u v m K D).1 hr
    have := h2 (u * v) (by omega)
    rw [List.getElem?_eq_none (by rw [hK.length_eq]; simp)] at this
    cases this

/-- Two selections of three of the cells of a grid with two rows and three columns. -/
example : IsSelection 2 3 3 [(0, 0), (1, 2), (0, 1)] ∧ IsSelection 2 3 3 [(1, 0), (1, 1), (1, 2)] := by
  constructor <;> exact ⟨by decide, by decide, by decide⟩

example : (3 : Nat) ≤ 2 * 3 ∧ [3, 1, 0, 2, 5, 4].Perm (List.range (2 * 3)) := by decide

end Gospn
