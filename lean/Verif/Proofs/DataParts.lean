/-
Lemmas for `Partition` and `PartitionByLabels` (Model/Data.lean) over exact reals.
-/
import Verif.Proofs.Data
import Verif.Proofs.Log
import Mathlib.Algebra.Order.Floor.Ring
import Mathlib.Tactic.Positivity

set_option linter.unusedSectionVars false
set_option linter.unusedSimpArgs false

namespace Gospn
open Spec

noncomputable section

/-- Rounding to the nearest integer, halves away from zero. -/
def rnd (x : ℝ) : ℤ := if 0 ≤ x then ⌊x + 1 / 2⌋ else ⌈x - 1 / 2⌉

theorem toInt_int (n : ℤ) : XR.toInt (XR.fin (n : ℝ)) = n := by
  simp only [XR.toInt]
  split <;> simp

theorem toInt_round (x : ℝ) : XR.toInt (XR.round (XR.fin x)) = rnd x := by
  simp only [XR.round, rnd]
  split <;> exact toInt_int _

theorem rnd_close (x : ℝ) : |x - rnd x| ≤ 1 / 2 := by
  unfold rnd
  rw [abs_le]
  split
  · have h1 := Int.floor_le (x + 1 / 2)
    have h2 := Int.lt_floor_add_one (x + 1 / 2)
    constructor <;> linarith
  · have h1 := Int.le_ceil (x - 1 / 2)
    have h2 := Int.ceil_lt_add_one (x - 1 / 2)
    constructor <;> linarith

theorem rnd_nonneg {x : ℝ} (h : -(1 / 2) < x) : 0 ≤ rnd x := by
  unfold rnd
  split
  · rename_i h0
    exact Int.floor_nonneg.2 (by linarith)
  · have h2 : (-1 : ℤ) < ⌈x - 1 / 2⌉ := Int.lt_ceil.2 (by push_cast; linarith)
    omega

theorem rnd_int (n : ℤ) : rnd (n : ℝ) = n := by
  have h := rnd_close (n : ℝ)
  rw [abs_le] at h
  have h1 : ((n - rnd (n : ℝ) : ℤ) : ℝ) < 1 := by push_cast; linarith [h.2]
  have h2 : (-1 : ℝ) < ((n - rnd (n : ℝ) : ℤ) : ℝ) := by push_cast; linarith [h.1]
  have h1' : n - rnd (n : ℝ) < 1 := by exact_mod_cast h1
  have h2' : -1 < n - rnd (n : ℝ) := by exact_mod_cast h2
  omega

/-- `cascadeRounding` over exact reals. -/
def casc : ℝ → ℤ → List ℝ → List ℤ
  | _, _, [] => []
  | s, t, x :: l => rnd (s + x - t) :: casc (s + x) (t + rnd (s + x - t)) l

theorem cascadeRounding_fold : ∀ (l : List ℝ) (s : ℝ) (t : ℤ) (q : List ℤ),
    ((l.map XR.fin).foldl (fun (st : XR × Int × List Int) x =>
      let s' := GoFloat.add st.1 x
      let r := GoFloat.toInt (GoFloat.round (GoFloat.sub s' (GoFloat.ofInt st.2.1)))
      (s', st.2.1 + r, st.2.2 ++ [r])) (XR.fin s, t, q)).2.2 = q ++ casc s t l := by
  intro l
  induction l with
  | nil => intro s t q; simp [casc]
  | cons x l ih =>
    intro s t q
    simp only [List.map_cons, List.foldl_cons, XR.g_add, XR.g_sub, XR.g_ofInt, XR.add_fin, XR.sub_fin, XR.g_toInt, XR.g_round, toInt_round]
    have := ih (s + x) (t + rnd (s + x - t)) (q ++ [rnd (s + x - t)])
    simp only [XR.g_add, XR.g_sub, XR.g_ofInt, XR.g_toInt, XR.g_round] at this
    rw [this]
    simp [casc]

theorem cascadeRounding_eq (l : List ℝ) : cascadeRounding (l.map XR.fin) = casc 0 0 l := by
  have := cascadeRounding_fold l 0 0 []
  simp only [List.nil_append] at this
  rw [← this]
  simp [cascadeRounding]

theorem casc_length : ∀ (l : List ℝ) (s : ℝ) (t : ℤ), (casc s t l).length = l.length := by
  intro l
  induction l with
  | nil => intros; rfl
  | cons x l ih => intro s t; simp [casc, ih]

theorem casc_prefix : ∀ (l : List ℝ) (s : ℝ) (t : ℤ), |s - t| ≤ 1 / 2 → ∀ j, |s + (l.take j).sum - (t + ((casc s t l).take j).sum : ℤ)| ≤ 1 / 2 := by
  intro l
  induction l with
  | nil => intro s t h j; simpa [casc] using h
  | cons x l ih =>
    intro s t h j
    cases j with
    | zero => simpa using h
    | succ j =>
      have := ih (s + x) (t + rnd (s + x - t)) (by
        have := rnd_close (s + x - t)
        push_cast
        rwa [show s + x - (t + (rnd (s + x - t) : ℝ)) = s + x - t - rnd (s + x - t) by ring]) j
      simp only [casc, List.take_succ_cons, List.sum_cons]
      convert this using 2
      push_cast
      ring

theorem casc_nonneg : ∀ (l : List ℝ) (s : ℝ) (t : ℤ), |s - t| ≤ 1 / 2 → (∀ x ∈ l, 0 ≤ x) → (∀ j ≤ l.length, ∀ z : ℤ, s + (l.take j).sum ≠ z + 1 / 2) →
    ∀ q ∈ casc s t l, 0 ≤ q := by
  intro l
  induction l with
  | nil => intro s t _ _ _ q hq; simp [casc] at hq
  | cons x l ih =>
    intro s t h hx hz q hq
    have hx0 := hx x (by simp)
    rcases List.mem_cons.1 hq with rfl | hq
    · apply rnd_nonneg
      rw [abs_le] at h
      have h0 := hz 0 (by simp) (t - 1)
      simp only [List.take_zero, List.sum_nil, add_zero] at h0
      have : s - t ≠ -(1 / 2) := fun h' => h0 (by push_cast; linarith)
      rcases lt_or_eq_of_le h.1 with h1 | h1
      · linarith
      · exact absurd h1.symm this
    · refine ih (s + x) _ ?_ (fun y hy => hx y (by simp [hy])) ?_ q hq
      · have := rnd_close (s + x - t)
        push_cast
        rwa [show s + x - (t + (rnd (s + x - t) : ℝ)) = s + x - t - rnd (s + x - t) by ring]
      · intro j hj z
        have := hz (j + 1) (by simpa using hj) z
        simpa [add_assoc] using this

theorem casc_int : ∀ (l : List ℤ) (t : ℤ), casc (t : ℝ) t (l.map fun (z : ℤ) => (z : ℝ)) = l := by
  intro l
  induction l with
  | nil => intros; rfl
  | cons x l ih =>
    intro t
    have : rnd ((t : ℝ) + x - t) = x := by
      rw [show (t : ℝ) + x - t = (x : ℝ) by ring]; exact rnd_int x
    simp only [List.map_cons, casc, this]
    have h2 := ih (t + x)
    push_cast at h2
    rw [h2]

/-- Positions of parts with sizes `S`, from part `i` on: part `i` as often as its size says. -/
def groupSeq : List ℤ → Nat → List Nat
  | [], _ => []
  | s :: S, i => List.replicate s.toNat i ++ groupSeq S (i + 1)

theorem groupSeq_length : ∀ (S : List ℤ) (i : Nat), (∀ s ∈ S, 0 ≤ s) → ((groupSeq S i).length : ℤ) = S.sum := by
  intro S
  induction S with
  | nil => intro i _; simp [groupSeq]
  | cons s S ih =>
    intro i h
    have h0 := h s (by simp)
    simp only [groupSeq, List.length_append, List.length_replicate, Nat.cast_add, List.sum_cons]
    rw [ih (i + 1) (fun x hx => h x (by simp [hx]))]
    omega

theorem groupSeq_count : ∀ (S : List ℤ) (i g : Nat), (groupSeq S i).count g = if i ≤ g then ((S[g - i]?).getD 0).toNat else 0 := by
  intro S
  induction S with
  | nil => intro i g; simp [groupSeq]
  | cons s S ih =>
    intro i g
    simp only [groupSeq, List.count_append, ih, List.count_replicate]
    by_cases h : i = g
    · subst h
      simp
    · by_cases h2 : i ≤ g
      · have h3 : i + 1 ≤ g := by omega
        simp only [h2, h3, if_true, h, beq_iff_eq, Bool.false_eq_true, if_false]
        rw [show g - i = (g - (i + 1)) + 1 by omega]
        simp
      · have h3 : ¬ i + 1 ≤ g := by omega
        simp [h2, h3, h]

theorem groupSeq_lt : ∀ (S : List ℤ) (i : Nat), ∀ g ∈ groupSeq S i, g < i + S.length := by
  intro S
  induction S with
  | nil => intro i g hg; simp [groupSeq] at hg
  | cons s S ih =>
    intro i g hg
    simp only [groupSeq, List.mem_append, List.mem_replicate] at hg
    rcases hg with hg | hg
    · simp; omega
    · have := ih (i + 1) g hg
      simp; omega

end
end Gospn
