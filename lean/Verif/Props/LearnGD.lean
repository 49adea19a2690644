/-
Property C96: what `LearnGD` returns is a valid network with distributions as weights.
-/
import Verif.Proofs.LearnGD

set_option linter.unusedSectionVars false
set_option linter.unusedSimpArgs false

namespace Gospn
open Spec GoFloat

section
variable {ι : Type} [DecidableEq ι] [Fintype ι]

/-- C96, parameter learning: on a valid network of alternating sums and products whose leaves have values, with positive weights that are distributions, `Generative` returns, whatever routine the bound
parameters name; the network it leaves is of the same shape, its weights are not negative, and distributions if the parameters ask for normalisation. -/
theorem C96_generative (N : Net ι XR) (S : ι) (hN : Layered N S) (hS : N.type S ≠ .leaf) (hp : PosWeights N S) (hw : DistWeights N S) (D : List VarSet)
    (hl : ∀ I ∈ D, LeavesEval N S I ∧ LeavesMax N S I) (B : Bindings ι XR) (p : Nat) (P : Params XR) (hB : B.heap[p]? = some P) (hb : B.map (.obj S) = some p)
    (eta lambda : ℝ) (heta : P.eta = .fin eta) (hlam : P.lambda = .fin lambda) (he : 0 ≤ eta) (hla : lambda < 1 / 2) (mo : RangeOrder ι XR) (ho : RangesAll mo) (pick : Nat → ι → Nat → Nat) :
    ∃ N', N.generative S D B mo pick = some (N', B) ∧ TrainedFrom N S P.normalize N' := by
  have hnn : NonnegWeights N S := hp.nonneg'
  have hne : ∀ n, Reach N.ch S n → ∀ cs w, N.kind n = .sum cs w → cs ≠ [] := fun n hn cs w hk => (hp n hn cs w hk).1
  have done : ∀ N', OnlyWeights S N N' → NonnegWeights N' S → (P.normalize = true → DistWeights N' S) → TrainedFrom N S P.normalize N' :=
    fun N' h1 h2 h3 => ⟨h1, h1.layered hN, h1.inScope, h2, h3⟩
  have hgen : ∀ o : Option (Net ι XR), (if learnHardness P.learningType = 0 then
      if P.batchSize > 1 then N.generativeHardBGD S P P.eta D P.normalize P.batchSize mo pick else N.generativeHardGD S P P.eta D P.normalize mo pick
      else if P.batchSize > 1 then N.generativeBGD S P P.eta D false P.normalize P.batchSize mo else N.generativeGD S P P.eta D false P.normalize) = o →
      N.generative S D B mo pick = o.map (·, B) := by
    rintro o rfl
    have hpar : N.parameters B S = (p, B) := by
      unfold Net.parameters Net.paramKey Bindings.retrieve
      unfold Net.type at hS
      cases hk : N.kind S with
      | leaf l => rw [hk] at hS; exact absurd rfl hS
      | sum cs w => simp [hb]
      | product cs => simp [hb]
    unfold Net.generative Bindings.retrieve
    simp only [hb, hB, Option.map_some, Option.bind_some, hpar]
  by_cases hh : learnHardness P.learningType = 0
  · by_cases hbs : P.batchSize > 1
    · obtain ⟨b, hb'⟩ : ∃ b : Nat, P.batchSize = b := ⟨P.batchSize.toNat, by omega⟩
      obtain ⟨N', h1, h2, h3, h4⟩ := C72_bgd_keeps N S P eta lambda hlam he hla D P.normalize b (by omega) mo ho pick ⟨hN.acyclic, hN.decomposable, hN.leaves⟩ hp (fun _ => hw) hl
      refine ⟨N', ?_, done N' h2 h3.nonneg' h4⟩
      rw [hgen (some N') (by rw [if_pos hh, if_pos hbs, heta, hb', h1])]
      rfl
    · obtain ⟨N', h1, h2, h3, h4⟩ := C72_gd_keeps N S P eta lambda hlam he hla D P.normalize mo ho pick ⟨hN.acyclic, hN.decomposable, hN.leaves⟩ hp (fun _ => hw) hl
      refine ⟨N', ?_, done N' h2 h3.nonneg' h4⟩
      rw [hgen (some N') (by rw [if_pos hh, if_neg hbs, heta, h1])]
      rfl
  · by_cases hbs : P.batchSize > 1
    · obtain ⟨b, hb'⟩ : ∃ b : Nat, P.batchSize = b := ⟨P.batchSize.toNat, by omega⟩
      obtain ⟨N', h1, h2, h3, h4⟩ := C71_keeps N S P eta lambda hlam he hla.le D false P.normalize b (by omega) mo ho hnn (fun _ => ⟨hla, hw⟩) (fun I hI => (hl I hI).1)
      refine ⟨N', ?_, done N' h2 h3 h4⟩
      rw [hgen (some N') (by rw [if_neg hh, if_pos hbs, heta, hb', h1])]
      rfl
    · cases hn : P.normalize with
      | true =>
        obtain ⟨N', h1, h2, h3⟩ := C69_normalised N S P eta he D false hne hw (fun I hI => (hl I hI).1)
        refine ⟨N', ?_, ?_⟩
        · rw [hgen (some N') (by rw [if_neg hh, if_neg hbs, heta, hn, h1])]
          rfl
        · rw [← hn]
          exact done N' h2 (nonneg_of_dist (h2.leaves hN.leaves) h3) fun _ => h3
      | false =>
        obtain ⟨N', h1, h2, h3⟩ := C69_unnormalised N S P eta he D false hnn (fun I hI => (hl I hI).1)
        refine ⟨N', ?_, ?_⟩
        · rw [hgen (some N') (by rw [if_neg hh, if_neg hbs, heta, hn, h1])]
          rfl
        · rw [← hn]
          exact done N' h2 h3 fun h => by rw [hn] at h; cases h

end

/-- C96 for learn/dennis, part: for complete data from which the Gaussians can be computed, `LearnGD` returns for every learning type, batch size, number of iterations, learning rate that is not
negative and regularisation constant below one half; the network has the variables of the data, is valid, its weights are distributions if the parameters ask for normalisation, and all routines work on it.
Missing: data for which a Gaussian is not a number (`C96_zeros_refuted`). -/
theorem C96_dennis_partial (E : DEnv XR) (D : List VarSet) (n : Nat) (k : Int) (m g : Nat) (d : XR) (hE : GoodEnv E D k) (hne : D ≠ []) (hn : 1 < n) (hc : CompleteVars n D) (hm : 0 < m) (hg : 0 < g)
    (hD : GaussianData D n g) (P : Params XR) (eta lambda : ℝ) (heta : P.eta = .fin eta) (hlam : P.lambda = .fin lambda) (he : 0 ≤ eta) (hla : lambda < 1 / 2) :
    ∃ S N, dennisStructure E D (firstVars n) k m g d = some (S, N) ∧ (∃ (c : Nat) (N₁ : Net (Fin c) XR) (S₁ : Fin c), IsCopy N S N₁ S₁) ∧
      ∀ (κ : Type) [Fintype κ] [DecidableEq κ] (N₁ : Net κ XR) (S₁ : κ), IsCopy N S N₁ S₁ → ∀ (B : Bindings κ XR) (p : Nat), B.heap[p]? = some P → ∀ mo : RangeOrder κ XR, RangesAll mo → ∀ pick,
        ∃ N₂ B₂, N₁.dennisLearnGD S₁ D p B mo pick = some (N₂, B₂) ∧ TrainedFrom N₁ S₁ P.normalize N₂ ∧ (∀ v, InScope N₂ S₁ v ↔ 0 ≤ v ∧ v < n) ∧ RoutinesRight N₂ S₁ := by
  obtain ⟨S, N, h1, h2, h3, h4, h5, h6⟩ := dennis_trainable E D n k m g d hE hne hn hc hm hg
  have hgauss : RealGaussians N S := by
    intro x l hx hk
    obtain ⟨v, i, gs, q, rfl, hgs, hq, rfl⟩ := dennis_leaves h1 hk
    have hv : 0 ≤ v ∧ v < n := (h4 v).1 ⟨_, _, hx, hk, rfl⟩
    obtain ⟨mu, sigma, hs, rfl⟩ := dennisGauss_real hg hD hv hgs (List.mem_of_getElem? hq)
    exact ⟨v, mu, sigma, hs, rfl⟩
  refine ⟨S, N, h1, exists_copy N S h3.acyclic, ?_⟩
  intro κ _ _ N₁ S₁ hcopy B p hB mo ho pick
  have hty : N₁.type S₁ ≠ .leaf := by rw [hcopy.root_type, h2]; simp
  obtain ⟨N₂, e, ht⟩ := C96_generative N₁ S₁ (hcopy.layered h3) hty (hcopy.posWeights h5) (hcopy.distWeights h6) D
    (fun I _ => (hcopy.realGaussians hgauss).evaluate I) (B.bind (.obj S₁) p) p P hB (by simp [Bindings.bind]) eta lambda heta hlam he hla mo ho pick
  refine ⟨N₂, _, e, ht, fun v => by rw [ht.scope, hcopy.scope, h4], ?_⟩
  exact routines_right N₂ S₁ ht.layered.acyclic ht.layered.reduced ht.layered.leaves (by rw [ht.only.type]; exact hty) (fun x => by rw [ht.only.ch]; exact hcopy.all_reachable x)

section
variable {κ : Type} [DecidableEq κ] [Fintype κ]

/-- C96 for `LearnGD` of learn/poon after `Structure`: on a valid network of alternating sums and products with weights 1 and real Gaussians, whose root has no parameters yet, it returns for every
learning rate that is not negative; the weights are distributions. -/
theorem C96_hard (N : Net κ XR) (S : κ) (hN : Layered N S) (hS : N.type S ≠ .leaf) (h1 : ∀ n, Reach N.ch S n → ∀ cs w, N.kind n = .sum cs w → w = cs.map fun _ => ofInt 1) (hg : RealGaussians N S)
    (D : List VarSet) (eta : ℝ) (he : 0 ≤ eta) (B : Bindings κ XR) (hB : B.map (.obj S) = none) (mo : RangeOrder κ XR) (ho : RangesAll mo) (pick : Nat → κ → Nat → Nat) :
    ∃ N' B', N.poonLearnGD S D (.fin eta) B mo pick = some (N', B') ∧ TrainedFrom N S true N' := by
  obtain ⟨N1, e1, ho1, hp1, hd1⟩ := normalize_ones N S hN.leaves h1
  have hN1 := ho1.layered hN
  have hlam : (Params.default : Params XR).lambda = .fin (1 / 100) := by
    simp [Params.default, XR.g_ofInt, XR.g_div, XR.div_fin]
  obtain ⟨N2, e2, ho2, hp2, hd2⟩ := C72_bgd_keeps N1 S (Params.default : Params XR) eta (1 / 100) hlam he (by norm_num) D true 50 (by norm_num) mo ho pick ⟨hN1.acyclic, hN1.decomposable, hN1.leaves⟩
    hp1 (fun _ => hd1) (fun I _ => (ho1.realGaussians hg).evaluate I)
  have hkey : N1.paramKey S = .obj S := by
    have : N1.type S ≠ .leaf := by rw [ho1.type]; exact hS
    unfold Net.type at this
    unfold Net.paramKey
    cases hk : N1.kind S with
    | leaf l => rw [hk] at this; exact absurd rfl this
    | sum cs w => rfl
    | product cs => rfl
  refine ⟨N2, (N1.parameters B S).2, ?_, ?_⟩
  · unfold Net.poonLearnGD
    rw [e1, Option.bind_some]
    have hpar : (N1.parameters B S).2.heap[(N1.parameters B S).1]? = some Params.default := by
      unfold Net.parameters Bindings.retrieve
      rw [hkey, hB]
      simp [Bindings.alloc, Bindings.bind]
    dsimp only
    rw [hpar, Option.bind_some, show (50 : Int) = ((50 : Nat) : Int) by rfl, e2, Option.map_some]
  · have h := ho1.trans ho2
    exact ⟨h, h.layered hN, h.inScope, hp2.nonneg', fun _ => hd2 rfl⟩

end

/-- C96 for learn/poon: if `Structure` returns a network in which every sum has children and every Gaussian is real, `LearnGD` returns for every learning rate that is not negative; the network has
the variables it had, is valid, its weights are distributions, and all routines work on it. -/
theorem C96_poon_partial (pick : Nat → Nat → Nat) (infer : VarSet → PState XR → PNode → Option (PNode → Option XR)) (D : List VarSet) (w h m g r : Nat) (S : PNode) (st : PState XR)
    (hrun : poonStructure pick infer D w h m g r = some (S, st)) (hl : LeavesAreLeaves (st.net w) S) (hS : (st.net w).type S ≠ .leaf) (hg : RealGaussians (st.net w) S) (eta : ℝ) (he : 0 ≤ eta) :
    (∃ (c : Nat) (N₁ : Net (Fin c) XR) (S₁ : Fin c), IsCopy (st.net w) S N₁ S₁) ∧
    ∀ (κ : Type) [Fintype κ] [DecidableEq κ] (N₁ : Net κ XR) (S₁ : κ), IsCopy (st.net w) S N₁ S₁ → ∀ B : Bindings κ XR, B.map (.obj S₁) = none → ∀ mo : RangeOrder κ XR, RangesAll mo → ∀ pk,
      ∃ N₂ B₂, N₁.poonLearnGD S₁ D (.fin eta) B mo pk = some (N₂, B₂) ∧ TrainedFrom N₁ S₁ true N₂ ∧ (∀ v, InScope N₂ S₁ v ↔ PixelIn w ⟨0, 0, w, h⟩ v) ∧ RoutinesRight N₂ S₁ := by
  obtain ⟨_, _, _, _, hones, hsc⟩ := C76_structure_partial pick infer D w h m g r S st hrun
  obtain ⟨hlay, _⟩ := C94_poon pick infer D w h m g r S st hrun hl hS
  refine ⟨exists_copy _ S hlay.acyclic, ?_⟩
  intro κ _ _ N₁ S₁ hcopy B hB mo ho pk
  have hty : N₁.type S₁ ≠ .leaf := by rw [hcopy.root_type]; exact hS
  obtain ⟨N₂, B₂, e, ht⟩ := C96_hard N₁ S₁ (hcopy.layered hlay) hty (fun n _ cs w hk => hcopy.ones hones n cs w hk) (hcopy.realGaussians hg) D eta he B hB mo ho pk
  refine ⟨N₂, B₂, e, ht, fun v => by rw [ht.scope, hcopy.scope, (hsc hl).2], ?_⟩
  exact routines_right N₂ S₁ ht.layered.acyclic ht.layered.reduced ht.layered.leaves (by rw [ht.only.type]; exact hty) (fun x => by rw [ht.only.ch]; exact hcopy.all_reachable x)

/-- C96 for learn/poon and one image, without conditions on the network: for every image of more than one block of `r` times `r` pixels (`r` at least 2), every number of sums, every number of
Gaussians from 2, and every learning rate that is not negative. -/
theorem C96_poon_single (pick : Nat → Nat → Nat) (hpick : GoodPick pick) (infer : VarSet → PState XR → PNode → Option (PNode → Option XR)) (I : VarSet) (w h m g r : Nat)
    (hr : 2 ≤ r) (hw : r ∣ w) (hh : r ∣ h) (hw0 : 0 < w) (hh0 : 0 < h) (hwh : w ≠ r ∨ h ≠ r) (hm : 0 < m) (hg : 2 ≤ g) (eta : ℝ) (he : 0 ≤ eta) :
    ∃ S st, poonStructure pick infer [I] w h m g r = some (S, st) ∧ (∃ (c : Nat) (N₁ : Net (Fin c) XR) (S₁ : Fin c), IsCopy (st.net w) S N₁ S₁) ∧
    ∀ (κ : Type) [Fintype κ] [DecidableEq κ] (N₁ : Net κ XR) (S₁ : κ), IsCopy (st.net w) S N₁ S₁ → ∀ B : Bindings κ XR, B.map (.obj S₁) = none → ∀ mo : RangeOrder κ XR, RangesAll mo → ∀ pk,
      ∃ N₂ B₂, N₁.poonLearnGD S₁ [I] (.fin eta) B mo pk = some (N₂, B₂) ∧ TrainedFrom N₁ S₁ true N₂ ∧ (∀ v, InScope N₂ S₁ v ↔ PixelIn w ⟨0, 0, w, h⟩ v) ∧ RoutinesRight N₂ S₁ := by
  obtain ⟨S, st, h1, h2, h3, _, _, _, h7⟩ := C76_single_partial pick hpick infer I w h m g r hr hw hh hw0 hh0 hwh hm hg
  refine ⟨S, st, h1, C96_poon_partial pick infer [I] w h m g r S st h1 h3 (by rw [h2]; simp) ?_ eta he⟩
  intro n l hn hk
  obtain ⟨v, mu, sigma, hs, e⟩ := h7 n l hn hk
  exact ⟨v, mu, sigma, hs.le, e⟩

/-- The data condition of `C96_dennis_partial` cannot be left out: if there are fewer instances than Gaussians and one variable is zero in all of them (a border pixel that is always black), then the
network is not a number for every input in which this variable is observed, before and after parameter learning, whatever the parameters and however learning ends. -/
theorem C96_zeros_refuted (E : DEnv XR) (D : List VarSet) (n : Nat) (k : Int) (m g : Nat) (d : XR) (hE : GoodEnv E D k) (hne : D ≠ []) (hn : 1 < n) (hc : CompleteVars n D) (hm : 0 < m)
    (hg : D.length < g) (v : Int) (hv : 0 ≤ v ∧ v < n) (hz : ∀ I ∈ D, I.get v = 0) :
    ∃ S N, dennisStructure E D (firstVars n) k m g d = some (S, N) ∧ (∃ (c : Nat) (N₁ : Net (Fin c) XR) (S₁ : Fin c), IsCopy N S N₁ S₁) ∧
      ∀ (κ : Type) [Fintype κ] [DecidableEq κ] (N₁ : Net κ XR) (S₁ : κ), IsCopy N S N₁ S₁ → ∀ (I : VarSet) (x : Int), I v = some x → N₁.value I S₁ = some .nan ∧
        ∀ (B : Bindings κ XR) (p : Nat) (mo : RangeOrder κ XR) (pick : Nat → κ → Nat → Nat) (N₂ : Net κ XR) (B₂ : Bindings κ XR), RangesAll mo →
          N₁.dennisLearnGD S₁ D p B mo pick = some (N₂, B₂) → N₂.value I S₁ = some .nan := by
  obtain ⟨S, N, h1, h2, h3, h4, h5, h6⟩ := dennis_trainable E D n k m g d hE hne hn hc hm (by omega)
  have hleaf : ∀ y l, N.kind y = .leaf l → ∃ u mu sigma, l = .gaussian u mu sigma ∧ (u = v → mu = .nan ∧ sigma = .nan) := by
    intro y l hk
    obtain ⟨u, i, gs, q, rfl, hgs, hq, rfl⟩ := dennis_leaves h1 hk
    refine ⟨u, q.1, q.2, rfl, ?_⟩
    rintro rfl
    unfold dennisGauss at hgs
    rw [if_pos hg] at hgs
    cases hgs
    have hq' := List.mem_of_getElem? hq
    rw [List.mem_singleton] at hq'
    rw [hq', statMuSigma_zeros]
    · exact ⟨rfl, rfl⟩
    · intro h0
      obtain ⟨I, hI⟩ := List.exists_mem_of_ne_nil D hne
      have : I.get u ∈ extractInstance u D := mem_extractInstance.2 ⟨I, hI, rfl⟩
      rw [h0] at this
      cases this
    · intro x hx
      obtain ⟨I, hI, rfl⟩ := mem_extractInstance.1 hx
      exact hz I hI
  refine ⟨S, N, h1, exists_copy N S h3.acyclic, ?_⟩
  intro κ _ _ N₁ S₁ hcopy I x hx
  have key : ∀ N' : Net κ XR, OnlyWeights S₁ N₁ N' → N'.value I S₁ = some .nan := by
    intro N' ho
    have hlay := ho.layered (hcopy.layered h3)
    have hleaf' : ∀ y l, N'.kind y = .leaf l → ∃ u mu sigma, l = .gaussian u mu sigma ∧ (u = v → mu = .nan ∧ sigma = .nan) := by
      intro y l hk
      obtain ⟨f, _, _, _, hkk⟩ := id hcopy
      have e := hkk y
      rw [ho.leaf.1 hk] at e
      exact hleaf (f y) l e.symm
    have hw : EnoughWeights N' S₁ := by
      refine ho.enough fun y hy cs w hk => ?_
      obtain ⟨_, r, rfl, hr, _⟩ := hcopy.posWeights h5 y hy cs w hk
      rw [List.length_map, hr]
    have hret : LeavesReturn N' S₁ I := by
      intro y hy l hk
      obtain ⟨u, mu, sigma, rfl, _⟩ := hleaf' y l hk
      unfold Leaf.value
      dsimp only
      split
      · simp
      · split <;> simp
    obtain ⟨z, hz1, hz2⟩ := nan_value hlay.acyclic hlay.complete hlay.leaves hw hret (v := v) (by
      intro y l hy hk hlv
      obtain ⟨u, mu, sigma, rfl, hu⟩ := hleaf' y l hk
      obtain ⟨rfl, rfl⟩ := hu hlv
      have : u = v := hlv
      subst this
      exact nan_gaussian u I x hx) S₁ Relation.ReflTransGen.refl
    rw [hz1, hz2 ((ho.inScope S₁ v).2 ((hcopy.scope v).2 ((h4 v).2 hv)))]
  refine ⟨key N₁ (OnlyWeights.refl S₁ N₁), ?_⟩
  intro B p mo pick N₂ B₂ ho h
  apply key
  unfold Net.dennisLearnGD Net.generative at h
  obtain ⟨PB, _, h0⟩ := Option.bind_eq_some_iff.1 h
  dsimp only at h0
  obtain ⟨Q, _, h0'⟩ := Option.bind_eq_some_iff.1 h0
  obtain ⟨N', hN, e⟩ := Option.map_eq_some_iff.1 h0'
  cases e
  clear h h0 h0'
  split at hN <;> split at hN
  · exact C74_generative N₁ S₁ Q _ D false _ _ mo ho pick N₂ (Or.inr (Or.inr (Or.inr hN)))
  · exact C74_generative N₁ S₁ Q _ D false _ 0 mo ho pick N₂ (Or.inr (Or.inr (Or.inl hN)))
  · exact C74_generative N₁ S₁ Q _ D false _ _ mo ho pick N₂ (Or.inr (Or.inl hN))
  · exact C74_generative N₁ S₁ Q _ D false _ 0 mo ho pick N₂ (Or.inl hN)

/-! ### The hypotheses hold for small data -/

/-- `C96_dennis_partial`: three instances of two variables and two Gaussians, default parameters. -/
example : GoodEnv exampleEnv threeTwo 2 ∧ threeTwo ≠ [] ∧ CompleteVars 2 threeTwo ∧ GaussianData threeTwo 2 2 ∧ (Params.default : Params XR).eta = .fin (1 / 10) ∧
    (Params.default : Params XR).lambda = .fin (1 / 100) ∧ (0 : ℝ) ≤ 1 / 10 ∧ (1 / 100 : ℝ) < 1 / 2 := by
  refine ⟨exampleEnv_good 2 (by omega), by simp [threeTwo], threeTwo_complete, Or.inl ⟨by simp [threeTwo], Or.inl (by simp [threeTwo])⟩, ?_, ?_, by norm_num, by norm_num⟩ <;>
  simp [Params.default, XR.g_ofInt, XR.g_div, XR.div_fin]

/-- Its second case: three instances and four Gaussians. -/
example : GaussianData threeTwo 2 4 := by
  refine Or.inr ⟨by simp [threeTwo], fun v h1 h2 => ?_⟩
  have : v = 0 ∨ v = 1 := by omega
  rcases this with rfl | rfl <;> simp [threeTwo, VarSet.get, VarSet.set, VarSet.empty]
  · exact ⟨1, by omega, by omega⟩
  · exact ⟨fun a _ => by positivity, 1, by omega, by omega⟩

/-- Three instances in which the variable 0 is always 0. -/
def zeroTwo : List VarSet := (List.range 3).map fun (i : Nat) => (VarSet.empty.set 0 0).set 1 i

theorem zeroTwo_complete : CompleteVars 2 zeroTwo := by
  intro x hx k
  simp only [zeroTwo, List.mem_map] at hx
  obtain ⟨i, _, rfl⟩ := hx
  simp only [VarSet.set, VarSet.empty]
  split
  · subst_vars; simp
  · split
    · subst_vars; simp
    · simp; omega

/-- `C96_zeros_refuted`. -/
example : GoodEnv exampleEnv zeroTwo 2 ∧ zeroTwo ≠ [] ∧ CompleteVars 2 zeroTwo ∧ zeroTwo.length < 4 ∧ ∀ I ∈ zeroTwo, I.get 0 = 0 := by
  refine ⟨exampleEnv_fits zeroTwo_complete rfl 2 (by omega), by simp [zeroTwo], zeroTwo_complete, by simp [zeroTwo], ?_⟩
  intro I hI
  simp only [zeroTwo, List.mem_map] at hI
  obtain ⟨i, _, rfl⟩ := hI
  simp [VarSet.get, VarSet.set, VarSet.empty]

/-- `C96_poon_single`: an image of 6 times 4 pixels, resolution 2, 20 sums, 4 Gaussians; the copies that `C96_poon_partial` speaks of exist. -/
example (infer : VarSet → PState XR → PNode → Option (PNode → Option XR)) (I : VarSet) : ∃ S st, poonStructure (fun _ n => n - 1) infer [I] 6 4 20 4 2 = some (S, st) ∧
    LeavesAreLeaves (st.net 6) S ∧ (st.net 6).type S ≠ .leaf ∧ RealGaussians (st.net 6) S := by
  obtain ⟨S, st, h1, h2, h3, _, _, _, h7⟩ := C76_single_partial (fun _ n => n - 1) (fun t n hn => Nat.sub_lt hn one_pos) infer I 6 4 20 4 2 le_rfl (by norm_num) (by norm_num) (by norm_num) (by norm_num)
    (by norm_num) (by norm_num) (by norm_num)
  refine ⟨S, st, h1, h3, by rw [h2]; simp, ?_⟩
  intro n l hn hk
  obtain ⟨v, mu, sigma, hs, e⟩ := h7 n l hn hk
  exact ⟨v, mu, sigma, hs.le, e⟩

end Gospn
