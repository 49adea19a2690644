/-
Properties C76, C94 and C96 for learn/poon on any number of images: `Structure` returns, and with one sum per region the network is valid and can be trained.
-/
import Verif.Proofs.PoonOne
import Verif.Proofs.PoonTotal
import Verif.Props.LearnGD

set_option linter.unusedSectionVars false
set_option linter.unusedSimpArgs false

namespace Gospn
open Spec GoFloat

/-- C76, part, any arithmetic: with one sum per region, whatever `Structure` returns for a data set that is not empty is a valid network about all pixels in which no sum lacks children. Missing: `m` larger
than one, for which `C76_refuted` shows that the root can lack children. -/
theorem C76_one_partial {F : Type} [GoFloat F] (pick : Nat → Nat → Nat) (infer : VarSet → PState F → PNode → Option (PNode → Option F)) (D : List VarSet) (w h g r : Nat) (S : PNode) (st : PState F)
    (hD : D ≠ []) (hrun : poonStructure pick infer D w h 1 g r = some (S, st)) :
    Acyclic (st.net w).ch ∧ LeavesAreLeaves (st.net w) S ∧ IsComplete (st.net w) S ∧ IsDecomposable (st.net w) S ∧ ∀ v, InScope (st.net w) S v ↔ PixelIn w ⟨0, 0, w, h⟩ v := by
  have hl := poon_one hrun hD
  obtain ⟨h1, h2, _, _, _, h6⟩ := C76_structure_partial pick infer D w h 1 g r S st hrun
  exact ⟨h1, hl, (h6 hl).1, h2, (h6 hl).2⟩

/-- C76, part: `Structure` returns for every data set with at least as many images as Gaussians per pixel and no empty quantile, whatever the draws, the number of sums and the order of the topological
sorts. The root is a sum and every leaf is a normal distribution with a positive deviation. Missing: that no sum lacks children (see `C76_one_partial`). -/
theorem C76_total_partial (pick : Nat → Nat → Nat) (hpick : GoodPick pick) (ord : PState XR → PNode → List PNode) (D : List VarSet) (w h m g r : Nat)
    (hr : 2 ≤ r) (hw : r ∣ w) (hh : r ∣ h) (hw0 : 0 < w) (hh0 : 0 < h) (hm : 0 < m) (hg : 2 ≤ g) (h1 : g ≤ D.length) (h2 : D.length < 2 * g ∨ g * (g - 1) < 2 * D.length) :
    ∃ S st, poonStructure pick (poonInfer w ord) D w h m g r = some (S, st) ∧ (st.net w).type S = .sum ∧
      ∀ n l, (st.net w).kind n = .leaf l → ∃ v, ∃ mu sigma : ℝ, 0 < sigma ∧ l = .gaussian v (.fin mu) (.fin sigma) := by
  obtain ⟨W, rfl⟩ := hw
  obtain ⟨H, rfl⟩ := hh
  rw [Nat.mul_comm r W] at *
  rw [Nat.mul_comm r H] at *
  have hW : 0 < W := Nat.pos_of_mul_pos_right hw0
  have hH : 0 < H := Nat.pos_of_mul_pos_right hh0
  obtain ⟨st, hrun, hok⟩ := poon_total hpick ord D W H m g r hr hm hW hH hg h1 h2
  refine ⟨_, st, hrun, ?_, ?_⟩
  · unfold Net.type
    rcases net_sum_cases st (W * r) ⟨0, 0, W * r, H * r⟩ 0 with ⟨_, _, _, _, _, _, e⟩ | e <;> rw [e]
  · intro n l hk
    cases n with
    | gauss k i =>
      rcases net_gauss_cases st (W * r) k i with ⟨R, gs, p, h1, h2, h3⟩ | h4
      · rw [net_gauss h1 h2 h3] at hk
        cases hk
        obtain ⟨mu, sigma, hs, rfl⟩ := hok.proper k R gs h1 h2 p (List.mem_of_getElem? h3)
        refine ⟨(k.x1 : Int) + (k.y1 : Int) * ((W * r : Nat) : Int), mu, sigma, hs, ?_⟩
        have hz : GoFloat.eq (XR.fin sigma) (ofInt 0 : XR) = false := by simp [XR.eq, hs.ne']
        unfold newGaussianParams
        simp [hz]
      · rw [h4] at hk
        cases hk
    | sum k i => rcases net_sum_cases st (W * r) k i with ⟨_, _, _, _, _, _, e⟩ | e <;> rw [e] at hk <;> cases hk
    | prod d => rw [net_prod] at hk; cases hk

/-- C94 for learn/poon, end to end for every number of images: with one sum per region all routines work on the network that `Structure` returns. -/
theorem C94_poon_many (pick : Nat → Nat → Nat) (hpick : GoodPick pick) (ord : PState XR → PNode → List PNode) (D : List VarSet) (w h g r : Nat)
    (hr : 2 ≤ r) (hw : r ∣ w) (hh : r ∣ h) (hw0 : 0 < w) (hh0 : 0 < h) (hg : 2 ≤ g) (h1 : g ≤ D.length) (h2 : D.length < 2 * g ∨ g * (g - 1) < 2 * D.length) :
    ∃ S st, poonStructure pick (poonInfer w ord) D w h 1 g r = some (S, st) ∧ Layered (st.net w) S ∧ UsableCopies (st.net w) S := by
  obtain ⟨S, st, hrun, hS, _⟩ := C76_total_partial pick hpick ord D w h 1 g r hr hw hh hw0 hh0 one_pos hg h1 h2
  have hD : D ≠ [] := by
    rintro rfl
    simp at h1
    omega
  exact ⟨S, st, hrun, C94_poon pick _ D w h 1 g r S st hrun (poon_one hrun hD) (by rw [hS]; simp)⟩

/-- C96 for learn/poon, end to end for every number of images: with one sum per region `LearnGD` returns a valid network whose weights are distributions, and all routines are right on it. -/
theorem C96_poon_many (pick : Nat → Nat → Nat) (hpick : GoodPick pick) (ord : PState XR → PNode → List PNode) (D : List VarSet) (w h g r : Nat)
    (hr : 2 ≤ r) (hw : r ∣ w) (hh : r ∣ h) (hw0 : 0 < w) (hh0 : 0 < h) (hg : 2 ≤ g) (h1 : g ≤ D.length) (h2 : D.length < 2 * g ∨ g * (g - 1) < 2 * D.length) (eta : ℝ) (he : 0 ≤ eta) :
    ∃ S st, poonStructure pick (poonInfer w ord) D w h 1 g r = some (S, st) ∧ (∃ (c : Nat) (N₁ : Net (Fin c) XR) (S₁ : Fin c), IsCopy (st.net w) S N₁ S₁) ∧
    ∀ (κ : Type) [Fintype κ] [DecidableEq κ] (N₁ : Net κ XR) (S₁ : κ), IsCopy (st.net w) S N₁ S₁ → ∀ B : Bindings κ XR, B.map (.obj S₁) = none → ∀ mo : RangeOrder κ XR, RangesAll mo → ∀ pk,
      ∃ N₂ B₂, N₁.poonLearnGD S₁ D (.fin eta) B mo pk = some (N₂, B₂) ∧ TrainedFrom N₁ S₁ true N₂ ∧ (∀ v, InScope N₂ S₁ v ↔ PixelIn w ⟨0, 0, w, h⟩ v) ∧ RoutinesRight N₂ S₁ := by
  obtain ⟨S, st, hrun, hS, hgs⟩ := C76_total_partial pick hpick ord D w h 1 g r hr hw hh hw0 hh0 one_pos hg h1 h2
  have hD : D ≠ [] := by
    rintro rfl
    simp at h1
    omega
  refine ⟨S, st, hrun, C96_poon_partial pick _ D w h 1 g r S st hrun (poon_one hrun hD) (by rw [hS]; simp) ?_ eta he⟩
  intro n l _ hk
  obtain ⟨v, mu, sigma, hs, e⟩ := hgs n l hk
  exact ⟨v, mu, sigma, hs.le, e⟩

/-- The hypotheses hold for three images of six by four pixels and two Gaussians per pixel; the draws always take the last. -/
example : ∃ S st, poonStructure (fun _ n => n - 1) (poonInfer 6 fun _ _ => []) [VarSet.empty, VarSet.empty.set 3 7, VarSet.empty.set 0 9] 6 4 1 2 2 = some (S, (st : PState XR)) ∧
    LeavesAreLeaves (st.net 6) S := by
  obtain ⟨S, st, h, _⟩ := C76_total_partial (fun _ n => n - 1) (fun _ n hn => Nat.sub_lt hn one_pos) (fun _ _ => []) [VarSet.empty, VarSet.empty.set 3 7, VarSet.empty.set 0 9] 6 4 1 2 2 le_rfl
    (by decide) (by decide) (by omega) (by omega) one_pos le_rfl (by simp) (by simp)
  exact ⟨S, st, h, (C76_one_partial _ _ _ 6 4 2 2 S st (by simp) h).2.1⟩

end Gospn
