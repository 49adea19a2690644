/-
Lemmas for C96: what copies and learning keep, and the Gaussians of learned networks.
-/
import Verif.Model.LearnGD
import Verif.Spec.LearnGD
import Verif.Props.Shape
import Verif.Props.Params
import Verif.Props.Learn
import Verif.Props.LearnHard
import Verif.Props.LearnShape
import Verif.Props.Stats
import Verif.Props.Gauss

set_option linter.unusedSectionVars false
set_option linter.unusedSimpArgs false

namespace Gospn
open Spec GoFloat

section
variable {ι κ : Type}

theorem Spec.IsCopy.distWeights {N : Net ι XR} {S : ι} {N' : Net κ XR} {S' : κ} (h : IsCopy N S N' S') (hw : DistWeights N S) : DistWeights N' S' := by
  obtain ⟨f, hf, rfl, hr, hk⟩ := h
  intro n hn cs w hkn
  have e := hk n
  rw [hkn] at e
  obtain ⟨r, h1, h2, h3⟩ := hw (f n) (copy_reach_up hk hn) _ _ e.symm
  exact ⟨r, h1, by simpa using h2, h3⟩

theorem Spec.IsCopy.posWeights {N : Net ι XR} {S : ι} {N' : Net κ XR} {S' : κ} (h : IsCopy N S N' S') (hw : PosWeights N S) : PosWeights N' S' := by
  obtain ⟨f, hf, rfl, hr, hk⟩ := h
  intro n hn cs w hkn
  have e := hk n
  rw [hkn] at e
  obtain ⟨h0, r, h1, h2, h3⟩ := hw (f n) (copy_reach_up hk hn) _ _ e.symm
  exact ⟨by simpa using h0, r, h1, by simpa using h2, h3⟩

theorem Spec.IsCopy.realGaussians {N : Net ι XR} {S : ι} {N' : Net κ XR} {S' : κ} (h : IsCopy N S N' S') (hl : RealGaussians N S) : RealGaussians N' S' := by
  obtain ⟨f, hf, rfl, hr, hk⟩ := h
  intro n l hn hkn
  have e := hk n
  rw [hkn] at e
  exact hl (f n) l (copy_reach_up hk hn) e.symm

theorem Spec.OnlyWeights.layered [DecidableEq ι] {N N' : Net ι XR} {S : ι} (h : OnlyWeights S N N') (hl : Layered N S) : Layered N' S := by
  refine ⟨by rw [h.ch]; exact hl.acyclic, h.leaves hl.leaves, h.complete hl.complete, h.decomposable hl.decomposable, ?_⟩
  intro n hn
  rw [h.ch] at hn
  refine ⟨fun cs w hk c hc => ?_, fun cs hk => (hl.alternating n hn).2 cs (h.product.1 hk)⟩
  obtain ⟨w', h1, _⟩ := h.sum' hk
  rw [h.type]
  exact (hl.alternating n hn).1 cs w' h1 c hc

theorem realGaussian_value (v : Int) (mu sigma : ℝ) (hs : 0 ≤ sigma) (I : VarSet) :
    (∃ x, (Leaf.gaussian v (.fin mu) (.fin sigma) : Leaf XR).value I = some x ∧ IsLogProb x) ∧ ∃ x, (Leaf.gaussian v (.fin mu) (.fin sigma) : Leaf XR).max I = some x ∧ IsLogProb x := by
  rcases hs.eq_or_lt with rfl | hs
  · have hz : (GoFloat.eq (XR.fin 0) (GoFloat.ofInt 0)) = true := by simp [XR.eq]
    simp only [Leaf.value, Leaf.max, hz, if_true]
    have : IsLogProb (zeroSigma (I v) (XR.fin mu)) := by
      unfold zeroSigma
      cases I v with
      | none => trivial
      | some u =>
        dsimp only
        split <;> simp [IsLogProb]
    exact ⟨⟨_, rfl, this⟩, _, rfl, this⟩
  · obtain ⟨h1, h2, h3, _⟩ := C68_gaussian_partial v mu sigma hs I
    cases hI : I v with
    | none =>
      obtain ⟨m, h3, _⟩ := h3 hI
      exact ⟨⟨_, h2 hI, by trivial⟩, _, h3, by trivial⟩
    | some u =>
      have h4 : (Leaf.gaussian v (.fin mu) (.fin sigma) : Leaf XR).max I = (Leaf.gaussian v (.fin mu) (.fin sigma) : Leaf XR).value I := by simp only [Leaf.value, Leaf.max, hI]
      exact ⟨⟨_, h1 u hI, by trivial⟩, _, h4.trans (h1 u hI), by trivial⟩

theorem Spec.RealGaussians.evaluate {N : Net ι XR} {S : ι} (h : RealGaussians N S) (I : VarSet) : LeavesEval N S I ∧ LeavesMax N S I := by
  constructor <;> intro n l hn hk <;> obtain ⟨v, mu, sigma, hs, rfl⟩ := h n l hn hk
  · exact (realGaussian_value v mu sigma hs I).1
  · exact (realGaussian_value v mu sigma hs I).2

theorem Spec.PosWeights.nonneg' {N : Net ι XR} {S : ι} (h : PosWeights N S) : NonnegWeights N S := by
  intro n hn cs w hk
  obtain ⟨h0, r, h1, h2, h3⟩ := h n hn cs w hk
  exact ⟨h0, r, h1, h2, fun x hx => (h3 x hx).le⟩

theorem nonneg_of_dist {N : Net ι XR} {S : ι} (hl : LeavesAreLeaves N S) (h : DistWeights N S) : NonnegWeights N S := by
  intro n hn cs w hk
  obtain ⟨r, h1, h2, h3, _⟩ := h n hn cs w hk
  refine ⟨?_, r, h1, h2, h3⟩
  have := hl n hn (by unfold Net.type; rw [hk]; simp)
  unfold Net.ch at this
  rwa [hk] at this

end

/-! ### The Gaussians of learn/dennis -/

section
variable {F : Type} [GoFloat F]

/-- learn/dennis/region.go:29-40: mean and deviation of the Gaussians of variable `v`. -/
def dennisGauss (D : List VarSet) (g : Nat) (v : Int) : Option (List (F × F)) :=
  if g > D.length then some [statMuSigma (extractInstance v D)]
  else (partitionQuantiles (F := F) (extractInstance v D) (g : Int)).bind fun Q => Q.mapM fun q => q[0]?.bind fun a => q[1]?.map fun b => (a, b)

/-- Every list of Gaussians in memory is the one of its variable, which is in the scope of the root. -/
def GaussKept (D : List VarSet) (g : Nat) (st : DState F) : Prop := ∀ v, st.gauss v ≠ [] → dennisGauss D g v = some (st.gauss v)

theorem buildPartition_gauss {pick : Nat → Nat → Nat} {s : Scope} {N : List DNode} {st st' : DState F} {p : Scope × Scope} (h : buildPartition pick s N st p = some st') : st'.gauss = st.gauss := by
  unfold buildPartition at h
  simp only [Option.map_eq_some_iff] at h
  obtain ⟨x, _, rfl⟩ := h
  rfl

theorem buildRegion_gauss {pick : Nat → Nat → Nat} {D : List VarSet} {m g : Nat} {root : Scope} {G : RGraph} {st st' : DState F} {s : Scope}
    (hst : GaussKept D g st) (h : buildRegion pick D m g root G st s = some st') : GaussKept D g st' := by
  unfold buildRegion at h
  obtain ⟨x, hx, h⟩ := Option.bind_eq_some_iff.1 h
  have hx' : GaussKept D g x.1 := by
    split at hx
    · cases hx
      exact hst
    · unfold translateRegion at hx
      split at hx
      · rename_i v _
        dsimp only at hx
        obtain ⟨gs, hgs, rfl⟩ := Option.map_eq_some_iff.1 hx
        intro u hu
        dsimp only at hu ⊢
        by_cases he : u = v
        · subst he
          rw [Function.update_self]
          exact hgs
        · rw [Function.update_of_ne he] at hu ⊢
          exact hst u hu
      · cases hx
        exact hst
  exact foldlM_keeps (P := GaussKept D g) (G.ch s) x.1 (fun p _ y hy z hz => by unfold GaussKept; rw [buildPartition_gauss hz]; exact hy) hx' _ h

/-- The leaves of what `Structure` of learn/dennis returns: the Gaussian number `i` of their variable. -/
theorem dennis_leaves {E : DEnv F} {D : List VarSet} {sc : Scope} {k : Int} {m g : Nat} {d : F} {S : DNode} {N : Net DNode F} (h : dennisStructure E D sc k m g d = some (S, N)) {n : DNode} {l : Leaf F}
    (hk : N.kind n = .leaf l) : ∃ (v : Int) (i : Nat) (gs : List (F × F)) (p : F × F), n = .leaf v i ∧ dennisGauss D g v = some gs ∧ gs[i]? = some p ∧ l = .gaussian v p.1 p.2 := by
  unfold dennisStructure at h
  obtain ⟨G, _, h⟩ := Option.bind_eq_some_iff.1 h
  obtain ⟨⟨S', st⟩, hb, h⟩ := Option.map_eq_some_iff.1 h
  cases h
  unfold buildSPN at hb
  obtain ⟨st', hf, hb⟩ := Option.bind_eq_some_iff.1 hb
  obtain ⟨_, _, hb⟩ := Option.map_eq_some_iff.1 hb
  cases hb
  have hkept : GaussKept D g st := foldlM_keeps (P := GaussKept D g) _ _ (fun s _ x hx y hy => buildRegion_gauss hx hy) (by intro v hv; exact absurd rfl hv) _ hf
  cases n with
  | leaf v i =>
    simp only [Net.normalized, DState.net] at hk
    cases hg : (st.gauss v)[i]? with
    | none => rw [hg] at hk; cases hk
    | some p =>
      rw [hg] at hk
      cases hk
      refine ⟨v, i, st.gauss v, p, rfl, hkept v ?_, hg, rfl⟩
      intro h0
      rw [h0] at hg
      cases hg
  | sum s i => simp [Net.normalized, DState.net] at hk
  | prod s a b j => simp [Net.normalized, DState.net] at hk

end

theorem mem_extractInstance {D : List VarSet} {v x : Int} : x ∈ extractInstance v D ↔ ∃ I ∈ D, I.get v = x := by
  unfold extractInstance
  rw [List.mem_map]

/-- Exact arithmetic, as many instances as Gaussians: the Gaussians are those of consecutive groups of the column. -/
theorem dennisGauss_groups {D : List VarSet} {g : Nat} (hg : 0 < g) (h1 : g ≤ D.length) (h2 : D.length < 2 * g ∨ g * (g - 1) < 2 * D.length) (v : Int) :
    ∃ G : List (List Int), G.length = g ∧ G.flatten = extractInstance v D ∧ (∀ Q ∈ G, Q ≠ []) ∧
      dennisGauss D g v = some (G.map fun Q => (.fin (sampleMean Q), .fin (if sampleSd Q = 0 then 1 / 2 else sampleSd Q)) : List (XR × XR)) := by
  obtain ⟨G, hG, hlen, hfl, hne⟩ := C50_partition_partial (extractInstance v D) g hg
  have hl : (extractInstance v D).length = D.length := by simp [extractInstance]
  rw [hl] at hne
  have hne := hne h1 h2
  refine ⟨G, hlen, hfl, hne, ?_⟩
  unfold dennisGauss
  rw [if_neg (by omega), hG, Option.bind_some, mapM_map_comp]
  apply mapM_eq_some
  intro Q hQ
  simp [hne Q hQ]

/-- Exact arithmetic: the Gaussians are real numbers. -/
theorem dennisGauss_real {D : List VarSet} {n g : Nat} (hg : 0 < g) (hD : GaussianData D n g) {v : Int} (hv : 0 ≤ v ∧ v < n) {gs : List (XR × XR)} (h : dennisGauss D g v = some gs)
    {p : XR × XR} (hp : p ∈ gs) : ∃ mu sigma : ℝ, 0 ≤ sigma ∧ p = (.fin mu, .fin sigma) := by
  rcases hD with ⟨h1, h2⟩ | ⟨h1, h2⟩
  · obtain ⟨G, _, _, _, hG⟩ := dennisGauss_groups hg h1 h2 v
    rw [hG] at h
    cases h
    obtain ⟨Q, _, rfl⟩ := List.mem_map.1 hp
    refine ⟨_, _, ?_, rfl⟩
    split
    · norm_num
    · exact Real.sqrt_nonneg _
  · unfold dennisGauss at h
    rw [if_pos h1] at h
    cases h
    rw [List.mem_singleton] at hp
    obtain ⟨h3, I, hI, h4⟩ := h2 v hv.1 hv.2
    have h3' : ∀ x ∈ extractInstance v D, 0 ≤ x := by
      intro x hx
      obtain ⟨J, hJ, rfl⟩ := mem_extractInstance.1 hx
      exact h3 J hJ
    have hsum : (extractInstance v D).sum ≠ 0 := by
      intro h0
      exact h4 (List.all_zero_of_le_zero_le_of_sum_eq_zero h3' h0 (mem_extractInstance.2 ⟨I, hI, rfl⟩))
    rw [hp, C60_muSigma, C60_mean _ hsum, C60_stdDev _ h3' hsum]
    exact ⟨_, _, Real.sqrt_nonneg _, rfl⟩

/-! ### Weights after `NormalizeSPN` -/

theorem spnNorm_pos (r : List ℝ) (h : ∀ x ∈ r, 0 < x) (hne : r ≠ []) :
    ∃ q : List ℝ, spnNorm (r.map XR.fin) = q.map XR.fin ∧ q.length = r.length ∧ (∀ x ∈ q, 0 < x) ∧ q.sum = 1 := by
  have hsum : 0 < r.sum := List.sum_pos _ h hne
  obtain ⟨e1, _, e3⟩ := C25_spn_partial r (fun x hx => (h x hx).le) hsum
  refine ⟨_, e1, by simp, ?_, e3⟩
  intro x hx
  obtain ⟨y, hy, rfl⟩ := List.mem_map.1 hx
  exact div_pos (h y hy) hsum

theorem finite_list {α : Type} (w : α → XR) : ∀ l : List α, (∀ c ∈ l, ∃ x : ℝ, 0 < x ∧ w c = XR.fin x) → ∃ r : List ℝ, l.map w = r.map XR.fin ∧ r.length = l.length ∧ ∀ x ∈ r, 0 < x := by
  intro l
  induction l with
  | nil => intro _; exact ⟨[], rfl, rfl, by simp⟩
  | cons c l ih =>
    intro hl
    obtain ⟨x, hx0, hx⟩ := hl c List.mem_cons_self
    obtain ⟨r, hr, hlen, hr0⟩ := ih fun c hc => hl c (List.mem_cons_of_mem _ hc)
    refine ⟨x :: r, by simp [hx, hr], by simp [hlen], ?_⟩
    intro y hy
    rcases List.mem_cons.1 hy with rfl | hy
    · exact hx0
    · exact hr0 y hy

/-- The network of learn/dennis in exact arithmetic: valid, alternating, of the given variables, with positive weights that are distributions. -/
theorem dennis_trainable (E : DEnv XR) (D : List VarSet) (n : Nat) (k : Int) (m g : Nat) (d : XR) (hE : GoodEnv E D k) (hne : D ≠ []) (hn : 1 < n) (hc : CompleteVars n D) (hm : 0 < m) (hg : 0 < g) :
    ∃ S N, dennisStructure E D (firstVars n) k m g d = some (S, N) ∧ N.type S = .sum ∧ Layered N S ∧ (∀ v, InScope N S v ↔ 0 ≤ v ∧ v < n) ∧ PosWeights N S ∧ DistWeights N S := by
  obtain ⟨S, st, h1, ⟨s, i, rfl⟩, h2, h3, h4, h5, h6, h7, h8, h9⟩ := dennis_net E D n k m g d hE hne hn hc (fun _ x _ c v _ => toInt_int v) hm hg
    (fun _ v => ⟨_, partitionQuantiles_eq _ g hg⟩)
  have key : ∀ x, Reach st.net.normalized.ch (.sum s i) x → ∀ cs w, st.net.normalized.kind x = .sum cs w → cs ≠ [] ∧ ∃ q : List ℝ, w = q.map XR.fin ∧ q.length = cs.length ∧
      (∀ y ∈ q, 0 < y) ∧ q.sum = 1 := by
    intro x hx cs w hk
    have hcne : cs ≠ [] := by
      have := h3 x hx (by unfold Net.type; rw [hk]; simp)
      unfold Net.ch at this
      rwa [hk] at this
    refine ⟨hcne, ?_⟩
    cases x with
    | leaf v j =>
      have := (h8 _ hx).2 ⟨v, j, rfl⟩
      unfold Net.type at this
      rw [hk] at this
      cases this
    | prod s a b j => cases hk
    | sum s j =>
      have hk' : cs = (st.kids (.sum s j)).map (·.1) ∧ w = spnNorm ((st.kids (.sum s j)).map (·.2)) := by
        cases hk
        exact ⟨rfl, rfl⟩
      obtain ⟨rfl, rfl⟩ := hk'
      obtain ⟨r, hr, hlen, hr0⟩ := finite_list (fun c : DNode × XR => c.2) (st.kids (.sum s j)) (by
        intro c hc
        obtain ⟨y, _, hy⟩ := h7 s j c hc
        refine ⟨(y : ℝ) + 1, by positivity, ?_⟩
        rw [hy, XR.g_ofInt]
        push_cast
        rfl)
      obtain ⟨q, e1, e2, e3⟩ := spnNorm_pos r hr0 (by
        rintro rfl
        apply hcne
        rw [List.length_eq_zero_iff.1 hlen.symm]
        rfl)
      exact ⟨q, by rw [hr, e1], by rw [e2, hlen, List.length_map], e3⟩
  refine ⟨_, _, h1, rfl, ⟨h2, h3, h4, h5, h9⟩, h6, ?_, ?_⟩
  · intro x hx cs w hk
    obtain ⟨h0, q, a, b, c, _⟩ := key x hx cs w hk
    exact ⟨h0, q, a, b, c⟩
  · intro x hx cs w hk
    obtain ⟨_, q, a, b, c, e⟩ := key x hx cs w hk
    exact ⟨q, a, b, fun y hy => (c y hy).le, e⟩

section
variable {ι : Type} [DecidableEq ι] [Fintype ι]

/-- `NormalizeSPN` on a network whose weights are all 1. -/
theorem normalize_ones (N : Net ι XR) (S : ι) (hl : LeavesAreLeaves N S) (h1 : ∀ n, Reach N.ch S n → ∀ cs w, N.kind n = .sum cs w → w = cs.map fun _ => ofInt 1) :
    ∃ N', N.normalizeSPN S = some N' ∧ OnlyWeights S N N' ∧ PosWeights N' S ∧ DistWeights N' S := by
  obtain ⟨N', e, hs, hr, hch⟩ := C26_normalize_spn N S
  have hlen : ∀ w : List XR, (spnNorm w).length = w.length := by
    intro w
    unfold spnNorm
    dsimp only
    split <;> simp [divSum]
  have hk' : ∀ n cs w, N'.kind n = .sum cs w → Reach N.ch S n → N.kind n = .sum cs (cs.map fun _ => ofInt 1) ∧ w = spnNorm (cs.map fun _ => ofInt 1) := by
    intro n cs w hk hn
    cases hkn : N.kind n with
    | sum cs' w' =>
      have e1 := hs n cs' w' hn hkn
      rw [hk] at e1
      cases e1
      have e2 := h1 n hn _ _ hkn
      rw [← e2]
      exact ⟨rfl, rfl⟩
    | product cs' =>
      have := hr n (by unfold Net.type; rw [hkn]; simp)
      rw [hk, hkn] at this
      cases this
    | leaf l =>
      have := hr n (by unfold Net.type; rw [hkn]; simp)
      rw [hk, hkn] at this
      cases this
  have key : ∀ n, Reach N'.ch S n → ∀ cs w, N'.kind n = .sum cs w → cs ≠ [] ∧ ∃ q : List ℝ, w = q.map XR.fin ∧ q.length = cs.length ∧ (∀ y ∈ q, 0 < y) ∧ q.sum = 1 := by
    intro n hn cs w hk
    rw [hch] at hn
    obtain ⟨hkn, rfl⟩ := hk' n cs w hk hn
    have hne : cs ≠ [] := by
      have := hl n hn (by unfold Net.type; rw [hkn]; simp)
      unfold Net.ch at this
      rwa [hkn] at this
    obtain ⟨r, hr, hlen, hr0⟩ := finite_list (fun _ : ι => (ofInt 1 : XR)) cs (fun c _ => ⟨1, one_pos, by simp [XR.g_ofInt]⟩)
    obtain ⟨q, e1, e2, e3⟩ := spnNorm_pos r hr0 (by
      rintro rfl
      exact hne (List.length_eq_zero_iff.1 hlen.symm))
    exact ⟨hne, q, by rw [hr, e1], by rw [e2, hlen], e3⟩
  refine ⟨N', e, ?_, ?_, ?_⟩
  · intro n
    cases hkn : N.kind n with
    | sum cs w =>
      dsimp only
      by_cases hn : Reach N.ch S n
      · exact ⟨_, hs n cs w hn hkn, hlen w, fun h => absurd hn h⟩
      · exact ⟨w, by rw [hr n (fun h => hn h.1), hkn], rfl, fun _ => rfl⟩
    | product cs => dsimp only; rw [hr n (by unfold Net.type; rw [hkn]; simp), hkn]
    | leaf l => dsimp only; rw [hr n (by unfold Net.type; rw [hkn]; simp), hkn]
  · intro x hx cs w hk
    obtain ⟨h0, q, a, b, c, _⟩ := key x hx cs w hk
    exact ⟨h0, q, a, b, c⟩
  · intro x hx cs w hk
    obtain ⟨_, q, a, b, c, e⟩ := key x hx cs w hk
    exact ⟨q, a, b, fun y hy => (c y hy).le, e⟩

theorem Spec.OnlyWeights.realGaussians {N N' : Net ι XR} {S : ι} (h : OnlyWeights S N N') (hl : RealGaussians N S) : RealGaussians N' S := by
  intro n l hn hk
  rw [h.ch] at hn
  exact hl n l hn (h.leaf.1 hk)

end

theorem Spec.IsCopy.ones {ι κ : Type} {N : Net ι XR} {S : ι} {N' : Net κ XR} {S' : κ} (h : IsCopy N S N' S') (h1 : ∀ n cs w, N.kind n = .sum cs w → w = cs.map fun _ => ofInt 1) :
    ∀ n cs w, N'.kind n = .sum cs w → w = cs.map fun _ => ofInt 1 := by
  obtain ⟨f, hf, rfl, hr, hk⟩ := h
  intro n cs w hkn
  have e := hk n
  rw [hkn] at e
  rw [h1 (f n) _ _ e.symm, List.map_map]
  rfl

/-! ### Leaves that are not a number -/

theorem XR.add_nan (x : XR) : XR.add x .nan = .nan := by cases x <;> rfl

theorem XR.nan_add (x : XR) : XR.add .nan x = .nan := by cases x <;> rfl

theorem prodCompute_nan {l : List XR} (h : XR.nan ∈ l) : prodCompute l = .nan := by
  unfold prodCompute
  have from_nan : ∀ l : List XR, l.foldl GoFloat.add (XR.nan) = .nan := by
    intro l
    induction l with
    | nil => rfl
    | cons x l ih => rw [List.foldl_cons, XR.g_add, XR.nan_add]; exact ih
  generalize (ofInt 0 : XR) = a
  induction l generalizing a with
  | nil => cases h
  | cons x l ih =>
    rw [List.foldl_cons]
    rcases List.mem_cons.1 h with rfl | h
    · rw [XR.g_add, XR.add_nan]
      exact from_nan l
    · exact ih h _

theorem logSumExp_nan {l : List XR} (h0 : l ≠ []) (h : ∀ x ∈ l, x = .nan) : logSumExp l = some .nan := by
  cases l with
  | nil => exact absurd rfl h0
  | cons a l =>
    obtain rfl := h a List.mem_cons_self
    have hmx : ∀ l : List XR, l.foldl (fun m v => if GoFloat.lt m v then v else m) (XR.nan) = .nan := by
      intro l
      induction l with
      | nil => rfl
      | cons x l ih =>
        rw [List.foldl_cons, if_neg (by cases x <;> simp [XR.lt])]
        exact ih
    unfold logSumExp
    dsimp only
    rw [hmx, if_neg (by simp [XR.isInf]), XR.g_add, XR.add_nan]

theorem weighted_total {F : Type} [GoFloat F] : ∀ (v w : List F), v.length ≤ w.length → ∃ r, weighted v w = some r ∧ r.length = v.length := by
  intro v
  induction v with
  | nil => intro w _; exact ⟨[], by simp [weighted], rfl⟩
  | cons a v ih =>
    intro w hw
    cases w with
    | nil => simp at hw
    | cons b w =>
      obtain ⟨r, h1, h2⟩ := ih w (by simpa using hw)
      exact ⟨_, by unfold weighted; rw [h1, Option.map_some], by simp [h2]⟩

theorem weighted_nan : ∀ {v w r : List XR}, weighted v w = some r → (∀ x ∈ v, x = .nan) → ∀ x ∈ r, x = .nan := by
  intro v
  induction v with
  | nil => intro w r h _; simp [weighted] at h; subst h; simp
  | cons a v ih =>
    intro w r h hv x hx
    cases w with
    | nil => simp [weighted] at h
    | cons b w =>
      unfold weighted at h
      obtain ⟨r', h1, rfl⟩ := Option.map_eq_some_iff.1 h
      rcases List.mem_cons.1 hx with rfl | hx
      · rw [hv a List.mem_cons_self, XR.g_add, XR.nan_add]
      · exact ih h1 (fun x hx => hv x (List.mem_cons_of_mem _ hx)) x hx

section
variable {ι : Type} [DecidableEq ι] [Fintype ι]

/-- If the leaves about `v` are not a number, nor is any node that has `v` in its scope. -/
theorem nan_value {N : Net ι XR} {S : ι} (hac : Acyclic N.ch) (hc : IsComplete N S) (hl : LeavesAreLeaves N S) (hw : EnoughWeights N S) {I : VarSet} (hr : LeavesReturn N S I) {v : Int}
    (hv : ∀ n l, Reach N.ch S n → N.kind n = .leaf l → leafVar l = v → l.value I = some .nan) :
    ∀ n, Reach N.ch S n → ∃ x, N.value I n = some x ∧ (InScope N n v → x = .nan) := by
  obtain ⟨rank, hrank⟩ := id hac
  intro n
  induction hn : rank n using Nat.strong_induction_on generalizing n with
  | _ k ih =>
    intro hS
    have ih' : ∀ c ∈ N.ch n, ∃ x, N.value I c = some x ∧ (InScope N c v → x = .nan) :=
      fun c hc => ih (rank c) (by rw [← hn]; exact hrank n c hc) c rfl (Relation.ReflTransGen.tail hS hc)
    rw [Net.value_unfold hac]
    unfold Net.valueStep
    have hvals : ∀ cs, N.ch n = cs → cs.mapM (N.value I) = some (cs.map fun c => (N.value I c).getD .nan) := by
      rintro cs rfl
      refine mapM_eq_some fun c hc => ?_
      obtain ⟨x, hx, _⟩ := ih' c hc
      rw [hx]
      rfl
    cases hk : N.kind n with
    | leaf l =>
      obtain ⟨x, hx⟩ := Option.ne_none_iff_exists'.1 (hr n hS l hk)
      refine ⟨x, hx, fun hs => ?_⟩
      have := hv n l hS hk ((InScope.of_leaf hk).1 hs)
      rw [hx] at this
      exact Option.some.inj this
    | product cs =>
      have hcs : N.ch n = cs := by unfold Net.ch; rw [hk]
      dsimp only
      rw [hvals cs hcs, Option.map_some]
      refine ⟨_, rfl, fun hs => ?_⟩
      rcases InScope.inv hs with ⟨l', h', _⟩ | ⟨c, hc, hs'⟩
      · rw [hk] at h'; cases h'
      · obtain ⟨x, hx, hn⟩ := ih' c hc
        refine prodCompute_nan (List.mem_map.2 ⟨c, hcs ▸ hc, ?_⟩)
        rw [hx, hn hs']
        rfl
    | sum cs w =>
      have hcs : N.ch n = cs := by unfold Net.ch; rw [hk]
      dsimp only
      rw [hvals cs hcs, Option.bind_some]
      obtain ⟨r, h1, h2⟩ := weighted_total (cs.map fun c => (N.value I c).getD .nan) w (by simpa using hw n hS cs w hk)
      rw [h1, Option.bind_some]
      have hne : r ≠ [] := by
        rintro rfl
        have := hl n hS (by unfold Net.type; rw [hk]; simp)
        rw [hcs] at this
        apply this
        simpa using h2.symm
      by_cases hs : InScope N n v
      · refine ⟨.nan, logSumExp_nan hne (weighted_nan h1 ?_), fun _ => rfl⟩
        intro y hy
        obtain ⟨c, hc', rfl⟩ := List.mem_map.1 hy
        have hsc : InScope N c v := by
          rcases InScope.inv hs with ⟨l', h', _⟩ | ⟨d, hd, hs'⟩
          · rw [hk] at h'; cases h'
          · exact hc n hS cs w hk d (hcs ▸ hd) c hc' v hs'
        obtain ⟨x, hx, hn⟩ := ih' c (hcs ▸ hc')
        rw [hx, hn hsc]
        rfl
      · have : ∃ x, logSumExp r = some x := by
          unfold logSumExp
          split
          · exact absurd rfl hne
          · dsimp only
            split <;> exact ⟨_, rfl⟩
        obtain ⟨x, hx⟩ := this
        exact ⟨x, hx, fun h => absurd h hs⟩

end

/-- `MuSigma` of numbers that are all zero. -/
theorem statMuSigma_zeros {c : List Int} (h0 : c ≠ []) (h : ∀ x ∈ c, x = 0) : statMuSigma (F := XR) c = (.nan, .nan) := by
  obtain ⟨n, rfl⟩ : ∃ n, c = List.replicate n 0 := ⟨c.length, List.eq_replicate_of_mem h⟩
  obtain ⟨m, rfl⟩ : ∃ m, n = m + 1 := ⟨n - 1, by
    have : n ≠ 0 := by rintro rfl; exact h0 rfl
    omega⟩
  have hsum : (List.replicate (m + 1) (0 : Int)).foldl (· + ·) 0 = 0 := by
    induction m with
    | zero => rfl
    | succ m ih => rw [List.replicate_succ, List.foldl_cons, Int.add_zero]; exact ih (by simp) (by simp)
  have hz : GoFloat.div (ofInt 0 : XR) (ofInt 0) = .nan := by
    simp [XR.div, XR.signedInf]
  have stay : ∀ (f : XR → Int × Nat → XR), (∀ x, f .nan x = .nan) → (∀ a i, f a (0, i) = .nan) → ∀ a, ((List.replicate (m + 1) (0 : Int)).zipIdx).foldl f a = .nan := by
    intro f h1 h2 a
    rw [List.replicate_succ, List.zipIdx_cons, List.foldl_cons, h2]
    generalize (List.replicate m (0 : Int)).zipIdx (0 + 1) = l
    induction l with
    | nil => rfl
    | cons x l ih => rw [List.foldl_cons, h1]; exact ih
  have hnm : ∀ x : XR, GoFloat.mul .nan x = .nan := by intro x; cases x <;> rfl
  unfold statMuSigma
  dsimp only
  rw [hsum, stay]
  · unfold statSquares
    dsimp only
    rw [stay]
    · rfl
    · intro x; rw [XR.g_add, XR.nan_add]
    · intro a i
      rw [hz, hnm, hnm, XR.g_add, XR.add_nan]
  · intro x; rw [XR.g_add, XR.nan_add]
  · intro a i
    rw [hz, hnm, XR.g_add, XR.add_nan]

theorem nan_gaussian (v : Int) (I : VarSet) (x : Int) (hx : I v = some x) : (Leaf.gaussian v .nan .nan : Leaf XR).value I = some .nan := by
  unfold Leaf.value
  dsimp only
  rw [hx]
  rfl

end Gospn
