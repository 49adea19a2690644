import Verif.Proofs.LearnTotal
import Verif.Props.Learn
/-
Property C74: what the learning routines leave alone.
-/
set_option linter.unusedSectionVars false
set_option linter.unusedSimpArgs false
namespace Gospn
open Spec GoFloat

namespace Spec
/-- The instance can be restored after the values of the variables `Y` have been taken out: it has all of them, and one that is listed more than once has the value 0. -/
def CanRestore (Y : List Int) (I : VarSet) : Prop := ∀ u ∈ Y, ∃ v, I u = some v ∧ (Y.count u = 1 ∨ v = 0)
end Spec

variable {ι F : Type} [DecidableEq ι] [GoFloat F] [Fintype ι]

/-- C74 for generative learning, whatever the floating point arithmetic, the parameters and the graph: a routine that returns has changed nothing but weights of sum nodes below `S`, each of which has
as many weights as before. -/
theorem C74_generative (N : Net ι F) (S : ι) (P : Params F) (eta : F) (D : List VarSet) (isStack norm : Bool) (b : Int) (mo : RangeOrder ι F) (ho : RangesAll mo) (pick : Nat → ι → Nat → Nat)
    (N' : Net ι F) (h : N.generativeGD S P eta D isStack norm = some N' ∨ N.generativeBGD S P eta D isStack norm b mo = some N' ∨ N.generativeHardGD S P eta D norm mo pick = some N' ∨
      N.generativeHardBGD S P eta D norm b mo pick = some N') : OnlyWeights S N N' := by
  have a2 : Sound (Reach N.ch S) _ _ := ((Sound.new (ι := ι) (F := F) (Reach N.ch S)).ticket (by simp [Storer.new])).ticket (by simp [Storer.new, Storer.newTicket, Storer.makeAt])
  rcases h with h | h | h | h
  · simp only [Net.generativeGD, Option.map_eq_some_iff] at h
    obtain ⟨y, h, rfl⟩ := h
    refine Kept.shape (epochs_keeps (P := Kept S N _) (fun x hx y hy => foldlM_keeps (P := Kept S N _) D x (fun I _ x hx y hy => hx.gdInstance ?_ ?_ hy) hx y hy) _ _ ⟨OnlyWeights.refl _ _, a2⟩ _ h) <;> simp
  · have a3 := a2.ticket (by simp [Storer.new, Storer.newTicket, Storer.makeAt])
    simp only [Net.generativeBGD, Option.map_eq_some_iff] at h
    obtain ⟨y, h, rfl⟩ := h
    refine Kept.shape (epochs_keeps (P := Kept S N _) (fun x hx y hy => ?_) _ _ ⟨OnlyWeights.refl _ _, a3⟩ _ h)
    simp only [Net.bgdEpoch, Option.bind_eq_some_iff] at hy
    obtain ⟨z, e1, q, e2, e3⟩ := hy
    have hz : Kept S N _ z.1 := foldlM_keeps (P := fun z : (Net ι F × Storer ι F) × Int => Kept S N _ z.1) D (x, 0) (fun I _ x hx y hy => hx.bgdInstance (by simp) (by simp) (by simp) ho hy) hx z e1
    split at e3
    · cases e3; exact hz
    · exact hz.applyReset (by simp) ho e3
  · simp only [Net.generativeHardGD, Option.map_eq_some_iff] at h
    obtain ⟨y, h, rfl⟩ := h
    refine Kept.shape (epochs_keeps (P := Kept S N _) (fun x hx y hy => foldlM_keeps (P := Kept S N _) D x (fun I _ x hx y hy => hx.hgdInstance ?_ ?_ hy) hx y hy) _ _ ⟨OnlyWeights.refl _ _, a2⟩ _ h) <;> simp
  · simp only [Net.generativeHardBGD, Option.map_eq_some_iff] at h
    obtain ⟨y, h, rfl⟩ := h
    refine Kept.shape (epochs_keeps (P := Kept S N _) (fun x hx y hy => ?_) _ _ ⟨OnlyWeights.refl _ _, a2⟩ _ h)
    simp only [Net.hbgdEpoch, Option.bind_eq_some_iff] at hy
    obtain ⟨z, e1, q, e2, e3⟩ := hy
    have hz : Kept S N _ z.1 := foldlM_keeps (P := fun z : (Net ι F × Storer ι F) × Int => Kept S N _ z.1) D (x, 0) (fun I _ x hx y hy => hx.hbgdInstance (by simp) (by simp) ho hy) hx z e1
    split at e3
    · cases e3; exact hz
    · exact hz.applyReset (by simp) ho e3

/-- All four discriminative routines: the network and the data set they return. -/
theorem discriminative_kept (N : Net ι F) (S : ι) (P : Params F) (eta : F) (D : List VarSet) (Y : List Int) (norm : Bool) (b : Int) (mo : RangeOrder ι F) (ho : RangesAll mo)
    (pick : Nat → ι → Nat → Nat) (r : Net ι F × List VarSet)
    (h : N.discriminativeGD S P eta D Y norm = some r ∨ N.discriminativeBGD S P eta D Y norm b mo = some r ∨ N.discriminativeHardGD S P eta D Y norm mo pick = some r ∨
      N.discriminativeHardBGD S P eta D Y norm b mo pick = some r) : OnlyWeights S N r.1 ∧ r.2 = D.map (pulledBack Y)^[P.iterations.toNat] := by
  have h0 : ∀ {k : Nat}, (0 : Int) ≤ k := by simp
  have a2 : Sound (Reach N.ch S) _ _ := ((Sound.new (ι := ι) (F := F) (Reach N.ch S)).ticket (by simp [Storer.new])).ticket (by simp [Storer.new, Storer.newTicket, Storer.makeAt])
  have a3 := a2.ticket (by simp [Storer.new, Storer.newTicket, Storer.makeAt])
  have a6 := ((a3.ticket (by simp [Storer.new, Storer.newTicket, Storer.makeAt])).ticket (by simp [Storer.new, Storer.newTicket, Storer.makeAt])).ticket
    (by simp [Storer.new, Storer.newTicket, Storer.makeAt])
  rcases h with h | h | h | h
  · simp only [Net.discriminativeGD, Option.map_eq_some_iff] at h
    obtain ⟨y, h, rfl⟩ := h
    obtain ⟨h1, h2⟩ := epochs_data (P := Kept S N _) (g := pulledBack Y) (fun x I hx y hy => hx.dgdInstance (by simp) (by simp) (by simp) (by simp) (by simp) (by simp) hy) _ D _
      ⟨OnlyWeights.refl _ _, a6⟩ h
    exact ⟨h1.shape, h2⟩
  · have a7 := a6.ticket (by simp [Storer.new, Storer.newTicket, Storer.makeAt])
    simp only [Net.discriminativeBGD, Option.bind_eq_some_iff, Option.map_eq_some_iff] at h
    obtain ⟨y, h, q, _, v, h3, rfl⟩ := h
    obtain ⟨h1, h2⟩ := epochs_data (P := fun x : (Net ι F × Storer ι F) × Int => Kept S N _ x.1) (g := pulledBack Y)
      (fun x I hx y hy => hx.dbgdInstance ho (by simp) (by simp) (by simp) (by simp) (by simp) (by simp) (by simp) hy) _ D _ ⟨OnlyWeights.refl _ _, a7⟩ h
    refine ⟨?_, h2⟩
    split at h3
    · cases h3; exact h1.shape
    · exact (h1.applyReset (by simp) ho h3).shape
  · simp only [Net.discriminativeHardGD, Option.map_eq_some_iff] at h
    obtain ⟨y, h, rfl⟩ := h
    obtain ⟨h1, h2⟩ := epochs_data (P := Kept S N _) (g := pulledBack Y) (fun x I hx y hy => hx.dhgdInstance ho (by simp) (by simp) hy) _ D _ ⟨OnlyWeights.refl _ _, a2⟩ h
    exact ⟨h1.shape, h2⟩
  · simp only [Net.discriminativeHardBGD, Option.bind_eq_some_iff, Option.map_eq_some_iff] at h
    obtain ⟨y, h, q, _, v, h3, rfl⟩ := h
    obtain ⟨h1, h2⟩ := epochs_data (P := fun x : (Net ι F × Storer ι F) × Int => Kept S N _ x.1) (g := pulledBack Y)
      (fun x I hx y hy => hx.dhbgdInstance ho (by simp) (by simp) (by simp) hy) _ D _ ⟨OnlyWeights.refl _ _, a3⟩ h
    refine ⟨?_, h2⟩
    split at h3
    · cases h3; exact h1.shape
    · exact (h1.hardReset (by simp) (by simp) ho h3).shape

/-- C74 for the network in discriminative learning, whatever the floating point arithmetic, the parameters and the graph. -/
theorem C74_discriminative (N : Net ι F) (S : ι) (P : Params F) (eta : F) (D : List VarSet) (Y : List Int) (norm : Bool) (b : Int) (mo : RangeOrder ι F) (ho : RangesAll mo)
    (pick : Nat → ι → Nat → Nat) (N' : Net ι F) (D' : List VarSet)
    (h : N.discriminativeGD S P eta D Y norm = some (N', D') ∨ N.discriminativeBGD S P eta D Y norm b mo = some (N', D') ∨ N.discriminativeHardGD S P eta D Y norm mo pick = some (N', D') ∨
      N.discriminativeHardBGD S P eta D Y norm b mo pick = some (N', D')) : OnlyWeights S N N' :=
  (discriminative_kept N S P eta D Y norm b mo ho pick _ h).1

theorem pulledBack_other {Y : List Int} {u : Int} (hu : u ∉ Y) (I : VarSet) : pulledBack Y I u = I u := by
  simp [pulledBack, push_get, pull_get, hu]

theorem pulledBack_restores {Y : List Int} (I : VarSet) : pulledBack Y (pulledBack Y I) = pulledBack Y I := by
  apply (C35_restored_iff _ _).2
  intro u hu
  simp only [pulledBack, push_get, hu, not_true_eq_false, if_false]
  by_cases hc : Y.count u = 1
  · simp [hc]
  · simp [hc]

theorem pulledBack_iter {Y : List Int} (I : VarSet) (k : Nat) : (pulledBack Y)^[k + 1] I = pulledBack Y I := by
  induction k with
  | zero => rfl
  | succ k ih => rw [Function.iterate_succ_apply', ih, pulledBack_restores]

/-- C74 for the data set, part: variables that are not in `Y` keep their values in every instance, and the data set is as it was if every instance has every variable of `Y`, listed once. Missing:
instances without one of these variables, see `C74_data_iff`. -/
theorem C74_data_partial (N : Net ι F) (S : ι) (P : Params F) (eta : F) (D : List VarSet) (Y : List Int) (norm : Bool) (b : Int) (mo : RangeOrder ι F) (ho : RangesAll mo)
    (pick : Nat → ι → Nat → Nat) (N' : Net ι F) (D' : List VarSet)
    (h : N.discriminativeGD S P eta D Y norm = some (N', D') ∨ N.discriminativeBGD S P eta D Y norm b mo = some (N', D') ∨ N.discriminativeHardGD S P eta D Y norm mo pick = some (N', D') ∨
      N.discriminativeHardBGD S P eta D Y norm b mo pick = some (N', D')) :
    D'.length = D.length ∧ (∀ (i : Nat) I I', D[i]? = some I → D'[i]? = some I' → ∀ u, u ∉ Y → I' u = I u) ∧ (Y.Nodup → (∀ I ∈ D, ∀ u ∈ Y, I u ≠ none) → D' = D) := by
  obtain ⟨_, h2⟩ := discriminative_kept N S P eta D Y norm b mo ho pick _ h
  dsimp only at h2
  subst h2
  refine ⟨by simp, ?_, ?_⟩
  · intro i I I' h1 h2 u hu
    rw [List.getElem?_map, h1] at h2
    simp only [Option.map_some, Option.some.injEq] at h2
    subst h2
    generalize P.iterations.toNat = k
    induction k with
    | zero => rfl
    | succ k ih => rw [Function.iterate_succ_apply', pulledBack_other hu, ih]
  · intro hn hp
    rw [List.map_congr_left (g := id)]
    · simp
    · intro I hI
      have : pulledBack Y I = I := C35_restored_partial I Y hn (hp I hI)
      exact Function.iterate_fixed this _

/-- C74 for the data set, exactly: with at least one iteration the data set is as it was if and only if every instance has every variable of `Y`, the value being 0 for those listed more than once. In
particular an instance without a query variable has it afterwards. -/
theorem C74_data_iff (N : Net ι F) (S : ι) (P : Params F) (eta : F) (D : List VarSet) (Y : List Int) (norm : Bool) (b : Int) (mo : RangeOrder ι F) (ho : RangesAll mo)
    (pick : Nat → ι → Nat → Nat) (N' : Net ι F) (D' : List VarSet) (hi : 0 < P.iterations)
    (h : N.discriminativeGD S P eta D Y norm = some (N', D') ∨ N.discriminativeBGD S P eta D Y norm b mo = some (N', D') ∨ N.discriminativeHardGD S P eta D Y norm mo pick = some (N', D') ∨
      N.discriminativeHardBGD S P eta D Y norm b mo pick = some (N', D')) :
    D' = D ↔ ∀ I ∈ D, CanRestore Y I := by
  obtain ⟨_, h2⟩ := discriminative_kept N S P eta D Y norm b mo ho pick _ h
  obtain ⟨k, hk⟩ : ∃ k, P.iterations.toNat = k + 1 := ⟨P.iterations.toNat - 1, by omega⟩
  dsimp only at h2
  subst h2
  rw [hk, List.map_congr_left (fun I _ => pulledBack_iter I k)]
  constructor
  · intro h I hI
    refine (C35_restored_iff I Y).1 ?_
    obtain ⟨i, hi, rfl⟩ := List.getElem_of_mem hI
    have := congrArg (fun l : List VarSet => l[i]?) h
    simp only [List.getElem?_map, List.getElem?_eq_getElem hi, Option.map_some, Option.some.injEq] at this
    exact this
  · intro h
    rw [List.map_congr_left (g := id)]
    · simp
    · intro I hI
      exact (C35_restored_iff I Y).2 (h I hI)

theorem overData_inv {σ : Type} {P : σ → Prop} {g : VarSet → VarSet} {body : σ → VarSet → Option (σ × VarSet)} : ∀ (D : List VarSet) (x : σ),
    (∀ I ∈ D, ∀ x, P x → ∃ y, body x I = some y ∧ P y.1 ∧ y.2 = g I) → P x → ∃ y, overData body x D = some y ∧ P y.1 ∧ y.2 = D.map g := by
  intro D
  induction D with
  | nil => intro x _ hx; exact ⟨_, rfl, hx, rfl⟩
  | cons I D ih =>
    intro x h hx
    obtain ⟨y, h1, h2, h3⟩ := h I (by simp) x hx
    obtain ⟨q, g1, g2, g3⟩ := ih y.1 (fun J hJ => h J (by simp [hJ])) h2
    exact ⟨(q.1, y.2 :: q.2), by simp only [overData, h1, g1, Option.bind_some, Option.map_some], g2, by simp [h3, g3]⟩

theorem pull_eq (I : VarSet) (Y : List Int) : (pullValues I Y).1 = fun u => if u ∈ Y then none else I u := by
  funext u; exact pull_get I Y u

theorem dgd_epochs {N : Net ι F} {S : ι} (hac : Acyclic N.ch) (hw : EnoughWeights N S) (P : Params F) (eta : F) {D : List VarSet} {Y : List Int} (norm : Bool)
    (hp : ∀ I ∈ D, CanRestore Y I) (hl : ∀ I ∈ D, LeavesReturn N S I ∧ LeavesReturn N S (fun u => if u ∈ Y then none else I u)) {ks : List Int} {s d w z p u : Int} (hs : s ∈ ks) (hd : d ∈ ks)
    (hw' : w ∈ ks) (hz : z ∈ ks) (hp' : p ∈ ks) (hu : u ∈ ks) {st : Storer ι F} (h0 : Sound (Reach N.ch S) ks st) :
    ∃ y : (Net ι F × Storer ι F) × List VarSet, epochs P.iterations (fun x : (Net ι F × Storer ι F) × List VarSet => overData (Net.dgdInstance S P eta Y norm s d w z p u) x.1 x.2) ((N, st), D) = some y ∧
      ((Kept S N ks y.1 ∧ ∀ n, n ≠ S → y.1.1.kind n = N.kind n) ∧ y.2 = D) := by
  refine epochs_invariant (P := fun x : (Net ι F × Storer ι F) × List VarSet => (Kept S N ks x.1 ∧ ∀ n, n ≠ S → x.1.1.kind n = N.kind n) ∧ x.2 = D) ?_ _ _ ⟨⟨⟨OnlyWeights.refl _ _, h0⟩, fun _ _ => rfl⟩, rfl⟩
  rintro ⟨x, D'⟩ ⟨hx, rfl⟩
  obtain ⟨y, h1, h2, h3⟩ := overData_inv (P := fun x : Net ι F × Storer ι F => Kept S N ks x ∧ ∀ n, n ≠ S → x.1.kind n = N.kind n) (g := pulledBack Y)
    (body := Net.dgdInstance S P eta Y norm s d w z p u) D' x (by
      rintro I hI x ⟨hk, hn⟩
      have hac' : Acyclic x.1.ch := by rw [hk.shape.ch]; exact hac
      obtain ⟨y, h1⟩ := dgdInstance_total (Y := Y) hk hac' (hk.shape.enough hw) P eta norm hs hd hw' hz hp' hu (hk.shape.leavesReturn (hl I hI).1)
        (by rw [pull_eq]; exact hk.shape.leavesReturn (hl I hI).2)
      obtain ⟨h2, h3⟩ := hk.dgdInstance hs hd hw' hz hp' hu h1
      refine ⟨y, h1, ⟨h2, ?_⟩, h3⟩
      intro n hne
      unfold Net.dgdInstance at h1
      simp only [Option.bind_eq_some_iff, Option.map_eq_some_iff] at h1
      obtain ⟨r, _, N', e2, rfl⟩ := h1
      obtain ⟨k, hkf⟩ := card_fuel S
      rw [hkf] at e2
      obtain ⟨N'', g1, g2⟩ := C34_refuted x.1 S hac' s w z u r.1 eta P.lambda (ofInt 1) norm k
      rw [g1] at e2
      cases e2
      exact (g2 n hne).trans (hn n hne)) hx
  refine ⟨y, h1, h2, ?_⟩
  rw [h3, List.map_congr_left (g := id)]
  · simp
  · intro I hI
    exact (C35_restored_iff I Y).2 (hp I hI)

/-- C74: `DiscriminativeGD` returns, on every graph without cycles whose sum nodes have enough weights, if no leaf panics on an instance or an instance without the query variables. The data set is as
it was. The root is the only node that changes (`C34_refuted`). -/
theorem C74_gd_returns (N : Net ι F) (S : ι) (hac : Acyclic N.ch) (hw : EnoughWeights N S) (P : Params F) (eta : F) (D : List VarSet) (Y : List Int) (norm : Bool)
    (hp : ∀ I ∈ D, CanRestore Y I) (hl : ∀ I ∈ D, LeavesReturn N S I ∧ LeavesReturn N S (fun u => if u ∈ Y then none else I u)) :
    ∃ N', N.discriminativeGD S P eta D Y norm = some (N', D) ∧ OnlyWeights S N N' ∧ ∀ n, n ≠ S → N'.kind n = N.kind n := by
  have a6 : Sound (Reach N.ch S) _ _ := ((((((Sound.new (ι := ι) (F := F) (Reach N.ch S)).ticket (by simp [Storer.new])).ticket (by simp [Storer.new, Storer.newTicket, Storer.makeAt])).ticket
    (by simp [Storer.new, Storer.newTicket, Storer.makeAt])).ticket (by simp [Storer.new, Storer.newTicket, Storer.makeAt])).ticket (by simp [Storer.new, Storer.newTicket, Storer.makeAt])).ticket
    (by simp [Storer.new, Storer.newTicket, Storer.makeAt])
  unfold Net.discriminativeGD
  extract_lets s d w z p u
  obtain ⟨y, h1, ⟨h2, h3⟩, h4⟩ := dgd_epochs hac hw P eta norm hp hl (s := s.1) (d := d.1) (w := w.1) (z := z.1) (p := p.1) (u := u.1) (by simp [s]) (by simp [s, d]) (by simp [s, d, w])
    (by simp [s, d, w, z]) (by simp [s, d, w, z, p]) (by simp [s, d, w, z, p, u]) a6
  refine ⟨y.1.1, ?_, h2.shape, h3⟩
  show (epochs P.iterations _ ((N, u.2), D)).map _ = _
  rw [h1]
  simp only [Option.map_some, h4]

theorem dbgd_epochs {N : Net ι F} {S : ι} (hac : Acyclic N.ch) (hw : EnoughWeights N S) (P : Params F) (eta : F) {D : List VarSet} {Y : List Int} (norm : Bool) {b : Int} (hb : b ≠ 0)
    {mo : RangeOrder ι F} (ho : RangesAll mo)
    (hp : ∀ I ∈ D, CanRestore Y I) (hl : ∀ I ∈ D, LeavesReturn N S I ∧ LeavesReturn N S (fun u => if u ∈ Y then none else I u)) {ks : List Int} {s d w z p u l : Int} (hs : s ∈ ks) (hd : d ∈ ks)
    (hw' : w ∈ ks) (hz : z ∈ ks) (hp' : p ∈ ks) (hu : u ∈ ks) (hlk : l ∈ ks) (hns : l ∉ [s, d, w, z, p, u]) {st : Storer ι F} (h0 : Sound (Reach N.ch S) ks st) (hr0 : InRange N l st) :
    ∃ y : ((Net ι F × Storer ι F) × Int) × List VarSet, epochs P.iterations (fun x : ((Net ι F × Storer ι F) × Int) × List VarSet =>
        overData (Net.dbgdInstance S P eta Y norm b mo s d w z p u l) x.1 x.2) (((N, st), 0), D) = some y ∧
      ((Kept S N ks y.1.1 ∧ InRange y.1.1.1 l y.1.1.2) ∧ y.2 = D) := by
  refine epochs_invariant (P := fun x : ((Net ι F × Storer ι F) × Int) × List VarSet => (Kept S N ks x.1.1 ∧ InRange x.1.1.1 l x.1.1.2) ∧ x.2 = D) ?_ _ _ ⟨⟨⟨OnlyWeights.refl _ _, h0⟩, hr0⟩, rfl⟩
  rintro ⟨x, D'⟩ ⟨hx, rfl⟩
  obtain ⟨y, h1, h2, h3⟩ := overData_inv (P := fun x : (Net ι F × Storer ι F) × Int => Kept S N ks x.1 ∧ InRange x.1.1 l x.1.2) (g := pulledBack Y)
    (body := Net.dbgdInstance S P eta Y norm b mo s d w z p u l) D' x (by
      rintro I hI x ⟨hk, hr⟩
      have hac' : Acyclic x.1.1.ch := by rw [hk.shape.ch]; exact hac
      obtain ⟨y, h1, hry⟩ := dbgdInstance_total (Y := Y) hk hac' (hk.shape.enough hw) P eta norm hb ho hs hd hw' hz hp' hu hlk hns hr (hk.shape.leavesReturn (hl I hI).1)
        (by rw [pull_eq]; exact hk.shape.leavesReturn (hl I hI).2)
      obtain ⟨h2, h3⟩ := hk.dbgdInstance ho hs hd hw' hz hp' hu hlk h1
      exact ⟨y, h1, ⟨h2, hry⟩, h3⟩) hx
  refine ⟨y, h1, h2, ?_⟩
  rw [h3, List.map_congr_left (g := id)]
  · simp
  · intro I hI
    exact (C35_restored_iff I Y).2 (hp I hI)

/-- C74: `DiscriminativeBGD` returns likewise, if the batch size is not 0. -/
theorem C74_bgd_returns (N : Net ι F) (S : ι) (hac : Acyclic N.ch) (hw : EnoughWeights N S) (P : Params F) (eta : F) (D : List VarSet) (Y : List Int) (norm : Bool) (b : Int) (hb : b ≠ 0)
    (mo : RangeOrder ι F) (ho : RangesAll mo)
    (hp : ∀ I ∈ D, CanRestore Y I) (hl : ∀ I ∈ D, LeavesReturn N S I ∧ LeavesReturn N S (fun u => if u ∈ Y then none else I u)) :
    ∃ N', N.discriminativeBGD S P eta D Y norm b mo = some (N', D) ∧ OnlyWeights S N N' := by
  have a7 : Sound (Reach N.ch S) _ _ := (((((((Sound.new (ι := ι) (F := F) (Reach N.ch S)).ticket (by simp [Storer.new])).ticket (by simp [Storer.new, Storer.newTicket, Storer.makeAt])).ticket
    (by simp [Storer.new, Storer.newTicket, Storer.makeAt])).ticket (by simp [Storer.new, Storer.newTicket, Storer.makeAt])).ticket (by simp [Storer.new, Storer.newTicket, Storer.makeAt])).ticket
    (by simp [Storer.new, Storer.newTicket, Storer.makeAt])).ticket (by simp [Storer.new, Storer.newTicket, Storer.makeAt])
  unfold Net.discriminativeBGD
  extract_lets s d w z p u l
  obtain ⟨y, h1, ⟨h2, h3⟩, h4⟩ := dbgd_epochs hac hw P eta norm hb ho hp hl (s := s.1) (d := d.1) (w := w.1) (z := z.1) (p := p.1) (u := u.1) (l := l.1) (by simp [s]) (by simp [s, d])
    (by simp [s, d, w]) (by simp [s, d, w, z]) (by simp [s, d, w, z, p]) (by simp [s, d, w, z, p, u]) (by simp [s, d, w, z, p, u, l])
    (by simp [s, d, w, z, p, u, l, Storer.new, Storer.newTicket, Storer.makeAt]) a7
    (by intro n i hi; simp [Storer.entry, Storer.newTicket, Storer.makeAt, Storer.new, Table.entry, Table.empty, l, u, p, z, w, d, s] at hi)
  show ∃ N', (epochs P.iterations _ (((N, l.2), 0), D)).bind _ = _ ∧ _
  rw [h1]
  simp only [Option.bind_some, goDvd, if_neg hb, h4]
  by_cases hq : y.1.2.tmod b = 0
  · exact ⟨y.1.1.1, by simp [hq], h2.shape⟩
  · obtain ⟨N', e3⟩ := applyReset_total h3 (dgdFromWeight eta P.lambda (ofInt b)) norm ho
    refine ⟨N', by simp [hq, e3], ?_⟩
    exact (h2.applyReset (by simp [s, d, w, z, p, u, l]) ho e3).shape

/-- A network, an instance and query variables that meet the conditions. -/
example : Acyclic stairNet.ch ∧ EnoughWeights stairNet 0 ∧ RangesAll (someOrder (Fin 3) XR) ∧ CanRestore [0] (fun _ => some 1) ∧ LeavesReturn stairNet 0 (fun _ => some 1) ∧
    LeavesReturn stairNet 0 (fun u => if u ∈ ([0] : List Int) then none else some 1) := by
  have hl : ∀ I : VarSet, LeavesReturn stairNet 0 I := by
    intro I n _ l hk
    have : l = .indicator 0 1 := by fin_cases n <;> simp [stairNet] at hk; exact hk.symm
    subst this
    simp only [Leaf.value]
    repeat' split
    all_goals simp
  refine ⟨stairNet_acyclic, ?_, someOrder_all _ _, ?_, hl _, hl _⟩
  · intro n _ cs w hk
    fin_cases n <;> simp [stairNet] at hk <;> obtain ⟨rfl, rfl⟩ := hk <;> simp
  · intro u hu
    rw [List.mem_singleton.1 hu]
    exact ⟨1, rfl, Or.inl (by simp)⟩

end Gospn
