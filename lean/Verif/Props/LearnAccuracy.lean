/-
C138: the accuracy of a learned network in terms of the data alone.
-/
import Verif.Props.LearnHeight
import Verif.Props.GensFloat
import Verif.Props.ClassifyFloat

set_option linter.unusedSectionVars false
set_option linter.unusedSimpArgs false

namespace Gospn
open GoFloat Spec
variable {ι F : Type} [GoFloat F] {val : F → XR}

/-- The length of the longest path is a rank. -/
theorem exists_height {ch : ι → List ι} (hac : Acyclic ch) : ∃ rank : ι → ℕ, (∀ u, ∀ c ∈ ch u, rank c < rank u) ∧ ∀ u b, HeightAtMost ch u b → rank u ≤ b := by
  obtain ⟨r0, h0⟩ := hac
  let P : ι → Set ℕ := fun u => {n | ∃ f : Nat → ι, f 0 = u ∧ IsPath ch f n}
  have hbound : ∀ u n, n ∈ P u → n ≤ r0 u := by
    rintro u n ⟨f, rfl, hf⟩
    have : ∀ i ≤ n, r0 (f i) + i ≤ r0 (f 0) := by
      intro i
      induction i with
      | zero => intro _; omega
      | succ i ih =>
        intro hi
        have h1 := ih (by omega)
        have h2 := h0 _ _ (hf i (by omega))
        omega
    have := this n le_rfl
    omega
  have hne : ∀ u, (P u).Nonempty := fun u => ⟨0, fun _ => u, rfl, fun i hi => absurd hi (by omega)⟩
  have hbdd : ∀ u, BddAbove (P u) := fun u => ⟨r0 u, fun n hn => hbound u n hn⟩
  refine ⟨fun u => sSup (P u), fun u c hc => ?_, fun u b hb => ?_⟩
  · obtain ⟨f, hf0, hf⟩ := Nat.sSup_mem (hne c) (hbdd c)
    have : sSup (P c) + 1 ∈ P u := by
      refine ⟨fun i => match i with | 0 => u | i + 1 => f i, rfl, fun i hi => ?_⟩
      cases i with
      | zero => show f 0 ∈ ch u; rw [hf0]; exact hc
      | succ i => exact hf i (by omega)
    exact Nat.lt_of_succ_le (le_csSup (hbdd u) this)
  · obtain ⟨f, hf0, hf⟩ := Nat.sSup_mem (hne u) (hbdd u)
    exact hb f _ hf0 hf

/-- A sum has at most as many children as there are instances, if no cluster is empty. -/
theorem learned_children {N : Net ι F} {g k : Int} (hg : g ≤ 0) {eps : F} {mp : Int} {cats : Int → Int}
    {Sc : VarScope} {D : List VarSet} {u : ι} (h : Learned N g k eps mp Sc D u) : (k ≤ 0 ∨ NoEmptyCluster N u) → ScopeOk cats Sc → SameVars D → ExactData F D → D ≠ [] →
    ∀ n, Reach N.ch u n → ∀ cs w, N.kind n = .sum cs w → cs.length ≤ D.length := by
  have uni : ∀ {v : Variable} {D : List VarSet} {u : ι}, IsUnivariate N g v D u → ∀ n, Reach N.ch u n → ∀ cs w, N.kind n ≠ .sum cs w := by
    intro v D u h n hn cs w hk
    have hch := (univariate_children h).1 hg
    rcases Relation.ReflTransGen.cases_head hn with rfl | ⟨c, hc, _⟩
    · unfold IsUnivariate at h
      rw [if_pos hg] at h
      obtain ⟨_, _, l, _, _, _, hl⟩ := h
      rw [hl] at hk
      cases hk
    · rw [hch] at hc
      cases hc
  induction h with
  | @leaf Sc D u key v ho _ hu =>
    intro _ _ _ _ hD n hn cs w hk
    exact absurd hk (uni hu n hn cs w)
  | @product Sc D u keys0 K scs cs ds ho hn hK hK1 hlen hsub hl hu hp ih =>
    intro hcl hok hs hx hD n hn' cs' w hk
    rcases Relation.ReflTransGen.cases_head hn' with rfl | ⟨c, hcu, hcn⟩
    · rw [hu] at hk; cases hk
    have hc : c ∈ ds := by simpa [Net.ch, hu] using hcu
    obtain ⟨i, s, h1, h2⟩ := child_index hlen (hp.mem_iff.1 hc)
    have hx' : ExactData F (subData D s) := by
      refine ⟨hx.1, fun x hxx c v hv => ?_⟩
      obtain ⟨I, hI, rfl⟩ := List.mem_map.1 hxx
      rw [subInstance] at hv
      split at hv
      · cases hv
        unfold VarSet.get
        cases hc : I c with
        | none => exact hx.1
        | some w => exact hx.2 I hI c w hc
      · cases hv
    have hlen' := length_sub D s
    have hD' : subData D s ≠ [] := by
      intro e
      rw [e] at hlen'
      have := List.length_pos_iff.2 hD
      simp at hlen'
      omega
    have := ih i s c h1 h2 (NoEmptyCluster_child hcl hcu) (subScope_ok (hsub i s h1) hok) (sameVars_sub _ _) hx' hD' n hcn cs' w hk
    rwa [hlen'] at this
  | @factorized Sc D u keys0 K ho hn hK hK1 hc hf =>
    intro _ hok hs hx hD n hn' cs' w hk
    obtain ⟨ks, cs, ho2, hlen, hu, hcs⟩ := hf
    rcases Relation.ReflTransGen.cases_head hn' with rfl | ⟨c, hcu, hcn⟩
    · rw [hu] at hk; cases hk
    have hc : c ∈ cs := by simpa [Net.ch, hu] using hcu
    obtain ⟨i, s, h1, h2⟩ := child_index hlen hc
    obtain ⟨v, _, hv⟩ := hcs i s c h1 h2
    exact absurd hk (uni hv n hcn cs' w)
  | @sum Sc D u keys0 K C orders cs ps ho hn hK hK1 hC hC1 hlen hor hl hp hu ih =>
    intro hcl hok hs hx hD n hn' cs' w hk
    have hperm := clustered_perm_exact hC hs hx
    have hne : [] ∉ C := by
      rcases hcl with hk0 | hcl
      · exact dbscan_nonempty hk0 hs hx hC
      · intro hnil
        obtain ⟨i, hi⟩ := List.getElem?_of_mem hnil
        have hlt : i < C.length := (List.getElem?_eq_some_iff.1 hi).1
        have hmem : (cs[i]'(by omega), div (ofInt (([] : List VarSet).length : Int)) (ofInt (D.length : Int))) ∈ (cs.zip (C.map fun d => (div (ofInt (d.length : Int)) (ofInt (D.length : Int)) : F))) := by
          apply List.mem_of_getElem? (i := i)
          rw [List.getElem?_zip_eq_some]
          refine ⟨List.getElem?_eq_getElem _, ?_⟩
          rw [List.getElem?_map, hi]
          rfl
        have hw := List.mem_map_of_mem (f := Prod.snd) (hp.mem_iff.2 hmem)
        exact hcl u _ _ Relation.ReflTransGen.refl hu (D.length : Int) (by have := List.length_pos_iff.2 hD; omega) (by simpa using hw)
    rcases Relation.ReflTransGen.cases_head hn' with rfl | ⟨c, hcu, hcn⟩
    · rw [hu] at hk
      cases hk
      have h1 := hp.length_eq
      have h2 := sum_parts 1 (by omega) C hne
      rw [hperm.length_eq] at h2
      simp only [List.length_zip, List.length_map] at h1 ⊢
      omega
    have hc : c ∈ ps.map Prod.fst := by simpa [Net.ch, hu] using hcu
    obtain ⟨i, d, h1, h2⟩ := child_index hlen (sum_children hp hc)
    have hd : d ∈ C := List.mem_of_getElem? h1
    have hr := reflectScope_eq (hor i)
    have := ih i d c h1 h2 (NoEmptyCluster_child hcl hcu) (by rw [hr]; exact hok) (sameVars_cluster hperm hs hd) ⟨hx.1, fun x hxx => hx.2 x (hperm.mem_iff.1 (List.mem_flatten.2 ⟨d, hd, hxx⟩))⟩
        (fun e => hne (e ▸ hd)) n hcn cs' w hk
    have h3 := part_le hd
    rw [(clustered_lengths hC).2] at h3
    omega

/-- C138. The error bound of C120 in terms of the data alone. Let `Learn` return a network in floating point arithmetic for `n` variables and `M` instances, with DBSCAN or so that no sum has a weight zero. There is
a probability distribution `P` on the complete instances, positive everywhere, such that, whatever the evidence, `Value` returns the logarithm of the probability of the evidence under `P` up to `(8M + 5)·ε·T`
with `T = n·(2(n + M - 2) + 1)`, where `ε` is a rounding error of `Value`: `2·u·B + η` with `B = L·(T + 1) + M + 4` and `L = log m + log M`, if there are at most `m` instances and categories. -/
theorem C138_value [Fintype ι] [DecidableEq ι] {N : Net ι F} {g k : Int} (hg : g ≤ 0) {eps : F} {mp : Int} {Sc : VarScope} {D : List VarSet} {S : ι} (h : Learned N g k eps mp Sc D S) (hcl : k ≤ 0 ∨ NoEmptyCluster N S)
    (cats : Int → Int) (hok : ScopeOk cats Sc) (hs : SameVars D) (hx : ExactData F D) (hD : D ≠ []) (hac : Acyclic N.ch)
    (keys : List Int) (hkeys : Sc.Order keys) (hne : keys ≠ []) (M m Z T : ℕ) (u η Ω L B ε : ℝ) (hF : StdFloat val u η Ω) (hZ : IntFloat val u Z)
    (hu : 0 ≤ u) (hu2 : u ≤ 1 / 2) (hη : 0 ≤ η) (hM : M = D.length)
    (hm : ∀ v ∈ keys, D.length + cats v ≤ m) (hmZ : m ≤ Z) (hT : T = keys.length * (2 * (keys.length + M - 2) + 1)) (hL : L = Real.log m + Real.log M) (hB : B = L * (T + 1) + M + 4)
    (hε : 2 * u * B + η ≤ ε) (hΩ : 2 * B ≤ Ω) (hsmall : (8 * M + 5) * ε * T ≤ 1) :
    ∃ (C : Finset VarSet) (P : VarSet → ℝ), (∀ J, J ∈ C ↔ FullInstance Sc cats J) ∧ (∀ J ∈ C, 0 < P J) ∧ ∑ J ∈ C, P J = 1 ∧
      ∀ I, (∀ v x, (Sc v).isSome → I v = some x → 0 ≤ x ∧ x < cats v) →
        ∃ (A : Finset VarSet) (v : F) (x : XR), (∀ J, J ∈ A ↔ J ∈ C ∧ Agrees Sc I J) ∧ N.value I S = some v ∧ Within ((8 * M + 5) * ε * T) (val v) x ∧ IsLogProb x ∧ unlog x = ∑ J ∈ A, P J ∧ absVal x ≤ L * T := by
  obtain ⟨rank, hrank, hh⟩ := exists_height hac
  have hpos := List.length_pos_iff.2 hD
  have hM1 : 1 ≤ M := by omega
  have hheight : rank S ≤ keys.length + M - 2 := by
    have := learned_height h hcl hok hs hx hD keys hkeys hne
    unfold univariateHeight at this
    rw [if_pos hg, ← hM] at this
    exact hh S _ this
  obtain ⟨v0, hv0⟩ := List.exists_mem_of_ne_nil _ hne
  have hm1 : 1 ≤ m := by
    obtain ⟨w0, hw0⟩ := Option.isSome_iff_exists.1 ((hkeys.2 v0).1 hv0)
    have h1 := (hok v0 w0 hw0).2.2
    have h2 := hm v0 hv0
    omega
  have hL0 : 0 ≤ L := by
    rw [hL]
    exact add_nonneg (Real.log_nonneg (by exact_mod_cast hm1)) (Real.log_nonneg (by exact_mod_cast hM1))
  set T' : ℕ := keys.length * (2 * rank S + 1) with hT'
  have hTT : T' ≤ T := by
    rw [hT, hT']
    exact Nat.mul_le_mul_left _ (by omega)
  have hTR : (T' : ℝ) ≤ T := by exact_mod_cast hTT
  have hLT : L * (T' + 1) ≤ L * (T + 1) := mul_le_mul_of_nonneg_left (by linarith) hL0
  have hB0 : 0 ≤ B := by
    rw [hB]
    positivity
  have hε0 : 0 ≤ ε := le_trans (by positivity) hε
  have hBB : L * (T' + 1) + M + 4 ≤ B := by rw [hB]; linarith
  have huB : 2 * u * (L * (T' + 1) + M + 4) ≤ 2 * u * B := mul_le_mul_of_nonneg_left hBB (by linarith)
  have hd : (8 * (M : ℝ) + 5) * ε * T' ≤ (8 * M + 5) * ε * T := mul_le_mul_of_nonneg_left hTR (by positivity)
  obtain ⟨C, P, h1, h2, h3, h4⟩ := C120_value hg h cats hok keys hkeys hne rank hrank M m Z T' u η Ω L (L * (T' + 1) + M + 4) ε hF hZ hu hu2 hη hM1
    (fun n hn cs w hk => by rw [hM]; exact learned_children hg h hcl hok hs hx hD n hn cs w hk) hm hmZ hT' hL rfl (by linarith) (by linarith) (by linarith)
  refine ⟨C, P, h1, h2, h3, fun I hI => ?_⟩
  obtain ⟨A, v, x, a1, a2, a3, a4, a5, a6⟩ := h4 I hI
  exact ⟨A, v, x, a1, a2, Within.mono a3 hd, a4, a5, a6.trans (mul_le_mul_of_nonneg_left hTR hL0)⟩

/-- C138. Classification in terms of the data alone. Under the conditions of `C138_value`, with two or more variables of which `v` is the class and a network that is a tree, ImgClassify gives each test instance a
class whose probability given the instance is at most `8δ` below the greatest, `δ = (8M + 5)·ε·T`. -/
theorem C138_classify [Fintype ι] [DecidableEq ι] {N : Net ι F} {g k : Int} (hg : g ≤ 0) {eps : F} {mp : Int} {Sc : VarScope} {D : List VarSet} {S : ι} (h : Learned N g k eps mp Sc D S) (hcl : k ≤ 0 ∨ NoEmptyCluster N S)
    (cats : Int → Int) (hok : ScopeOk cats Sc) (hs : SameVars D) (hx : ExactData F D) (hD : D ≠ []) (hac : Acyclic N.ch) (htree : TreeBelow N.ch S) (hsum : ∀ n cs w, N.kind n = .sum cs w → cs ≠ [])
    (keys : List Int) (hkeys : Sc.Order keys) (hne : 2 ≤ keys.length) (M m Z T : ℕ) (u η Ω L B ε : ℝ) (hF : StdFloat val u η Ω) (hZ : IntFloat val u Z)
    (hu : 0 ≤ u) (hu2 : u ≤ 1 / 2) (hη : 0 ≤ η) (hM : M = D.length)
    (hm : ∀ v ∈ keys, D.length + cats v ≤ m) (hmZ : m ≤ Z) (hT : T = keys.length * (2 * (keys.length + M - 2) + 1)) (hL : L = Real.log m + Real.log M) (hB : B = L * (T + 1) + M + 4)
    (hε : 2 * u * B + η ≤ ε) (hΩ : 2 * B ≤ Ω) (hsmall : (8 * M + 5) * ε * T ≤ 1) :
    ∃ (C : Finset VarSet) (P : VarSet → ℝ), (∀ J, J ∈ C ↔ FullInstance Sc cats J) ∧ (∀ J ∈ C, 0 < P J) ∧ ∑ J ∈ C, P J = 1 ∧
      ∀ v ∈ keys, ∀ (test : List VarSet) (lbls : List Int), lbls.length = test.length → (∀ l ∈ lbls, 0 ≤ l ∧ l < cats v) →
        (∀ I ∈ test, I v = none ∧ ∀ w x, (Sc w).isSome → I w = some x → 0 ≤ x ∧ x < cats w) →
        ∃ ps : List Int, List.Forall₂ (NearlyBest Sc C P v (cats v) (8 * ((8 * M + 5) * ε * T))) test ps ∧
          imgClassify N S v (cats v) test lbls = some ((List.zip ps lbls).countP (fun x => x.1 = x.2), test.length, test) := by
  have hne' : keys ≠ [] := by rintro rfl; simp at hne
  obtain ⟨rank, hrank, hh⟩ := exists_height hac
  have hpos := List.length_pos_iff.2 hD
  have hM1 : 1 ≤ M := by omega
  have hheight : rank S ≤ keys.length + M - 2 := by
    have := learned_height h hcl hok hs hx hD keys hkeys hne'
    unfold univariateHeight at this
    rw [if_pos hg, ← hM] at this
    exact hh S _ this
  obtain ⟨v0, hv0⟩ := List.exists_mem_of_ne_nil _ hne'
  have hm1 : 1 ≤ m := by
    obtain ⟨w0, hw0⟩ := Option.isSome_iff_exists.1 ((hkeys.2 v0).1 hv0)
    have h1 := (hok v0 w0 hw0).2.2
    have h2 := hm v0 hv0
    omega
  have hL0 : 0 ≤ L := by
    rw [hL]
    exact add_nonneg (Real.log_nonneg (by exact_mod_cast hm1)) (Real.log_nonneg (by exact_mod_cast hM1))
  set T' : ℕ := keys.length * (2 * rank S + 1) with hT'
  have hTT : T' ≤ T := by
    rw [hT, hT']
    exact Nat.mul_le_mul_left _ (by omega)
  have hTR : (T' : ℝ) ≤ T := by exact_mod_cast hTT
  have hLT : L * (T' + 1) ≤ L * (T + 1) := mul_le_mul_of_nonneg_left (by linarith) hL0
  have hB0 : 0 ≤ B := by
    rw [hB]
    positivity
  have hε0 : 0 ≤ ε := le_trans (by positivity) hε
  have hBB : L * (T' + 1) + M + 4 ≤ B := by rw [hB]; linarith
  have huB : 2 * u * (L * (T' + 1) + M + 4) ≤ 2 * u * B := mul_le_mul_of_nonneg_left hBB (by linarith)
  have hd : (8 * (M : ℝ) + 5) * ε * T' ≤ (8 * M + 5) * ε * T := mul_le_mul_of_nonneg_left hTR (by positivity)
  obtain ⟨C, P, h1, h2, h3, h4⟩ := C122_classify hg h cats hok keys hkeys hne rank hrank htree hsum M m Z T' u η Ω L (L * (T' + 1) + M + 4) ε hF hZ hu hu2 hη hM1
    (fun n hn cs w hk => by rw [hM]; exact learned_children hg h hcl hok hs hx hD n hn cs w hk) hm hmZ hT' hL rfl (by linarith) (by linarith) (by linarith)
  refine ⟨C, P, h1, h2, h3, fun v hv test lbls hl1 hl2 htest => ?_⟩
  obtain ⟨ps, a1, a2⟩ := h4 v hv test lbls hl1 hl2 htest
  refine ⟨ps, a1.imp ?_, a2⟩
  rintro I p ⟨b1, b2, b3⟩
  exact ⟨b1, b2, fun j hj1 hj2 => (b3 j hj1 hj2).trans (by linarith)⟩

namespace GensExample

/-- A network learned with the parameters of DBSCAN in any arithmetic: a product of two leaves. -/
theorem learnedProduct (eps : F) (mp : Int) : ∃ N : Net (Fin 3) F, Learned N 0 0 eps mp scope [d0, d1] 0 ∧ Acyclic N.ch ∧ TreeBelow N.ch 0 ∧ ∀ n cs w, N.kind n = .sum cs w → cs ≠ [] := by
  have hrand : ∀ n, 0 < n → (fun _ => 0 : Nat → Nat) n < n := fun n hn => hn
  obtain ⟨a, ha⟩ := counting_some (F := F) 0 [1, 1]
  obtain ⟨b, hb⟩ := counting_some (F := F) 1 [1, 1]
  let N : Net (Fin 3) F := ⟨![.product [1, 2], .leaf a, .leaf b]⟩
  refine ⟨N, ?_, ⟨fun n => 3 - n.val, fun u c hc => ?_⟩, tree_of_parent 0 ![0, 0, 0] fun u c hc => ?_, fun n cs w hk => ?_⟩
  · refine .product [0, 1] [[0], [1]] (fun i => fun k => if k = i then some ⟨k, 2⟩ else none) [1, 2] [1, 2] scope_order (by simp) ?_ (by simp) rfl ?_ ?_ rfl (List.Perm.refl _)
    · exact ⟨[0, 1], [(⟨0, 2⟩, [d0, d1].map fun I => I.get 0), (⟨1, 2⟩, [d0, d1].map fun I => I.get 1)], fun _ _ => true, scope_order, rfl,
        show newUFIndepGraph [0, 1] (fun _ _ => true) = some [[0], [1]] by decide⟩
    · intro i s hs
      match i, hs with
      | 0, hs => simp at hs; subst hs; simp [subScope, scope]; funext k; by_cases h : k = 0 <;> simp [h]
      | 1, hs => simp at hs; subst hs; simp [subScope, scope]; funext k; by_cases h : k = 1 <;> simp [h]
      | i + 2, hs => simp at hs
    · intro i s c hs hc
      match i, hs, hc with
      | 0, hs, hc =>
        simp at hs hc; subst hs; subst hc
        refine .leaf 0 ⟨0, 2⟩ ⟨by simp, fun k => by by_cases h : k = 0 <;> simp [h]⟩ (by simp) ?_
        unfold IsUnivariate
        rw [if_pos le_rfl]
        exact ⟨fun _ => 0, [1, 1], a, hrand, by decide, ha, rfl⟩
      | 1, hs, hc =>
        simp at hs hc; subst hs; subst hc
        refine .leaf 1 ⟨1, 2⟩ ⟨by simp, fun k => by by_cases h : k = 1 <;> simp [h]⟩ (by simp) ?_
        unfold IsUnivariate
        rw [if_pos le_rfl]
        exact ⟨fun _ => 0, [1, 1], b, hrand, by decide, hb, rfl⟩
      | i + 2, hs, hc => simp at hs
  · have : c ∈ N.ch u := hc
    fin_cases u <;> simp [Net.ch, N] at this <;> (try rcases this with rfl | rfl) <;> decide
  · have : c ∈ N.ch u := hc
    fin_cases u <;> simp [Net.ch, N] at this <;> (try rcases this with rfl | rfl) <;> rfl
  · fin_cases n <;> simp [N] at hk

/-- The conditions of C138 hold in fixed-point arithmetic for two variables and two instances. -/
example : ∃ N : Net (Fin 3) Fixed, ∃ L B ε : ℝ, Learned N 0 0 ⟨.fin 0⟩ 1 scope [d0, d1] 0 ∧ ScopeOk (fun _ => 2) scope ∧ SameVars [d0, d1] ∧ ExactData Fixed [d0, d1] ∧ Acyclic N.ch ∧ TreeBelow N.ch 0 ∧ (∀ n cs w, N.kind n = .sum cs w → cs ≠ []) ∧ scope.Order [0, 1] ∧
    StdFloat Fixed.get (1 / 2 ^ 17) (1 / 2 ^ 21) 100 ∧ IntFloat Fixed.get (1 / 2 ^ 17) 4 ∧
    (∀ v ∈ ([0, 1] : List Int), (([d0, d1] : List VarSet).length : Int) + (fun _ => 2 : Int → Int) v ≤ ((4 : ℕ) : Int)) ∧ 10 = ([0, 1] : List Int).length * (2 * (([0, 1] : List Int).length + 2 - 2) + 1) ∧
    L = Real.log (4 : ℕ) + Real.log (2 : ℕ) ∧ B = L * ((10 : ℕ) + 1) + (2 : ℕ) + 4 ∧ 2 * (1 / 2 ^ 17) * B + 1 / 2 ^ 21 ≤ ε ∧ 2 * B ≤ 100 ∧ (8 * (2 : ℕ) + 5) * ε * (10 : ℕ) ≤ 1 := by
  obtain ⟨N, h1, h2, h3, h4⟩ := learnedProduct (F := Fixed) ⟨.fin 0⟩ 1
  obtain ⟨_, _, _, _, hok, hs, _⟩ := C136_attained (.fin 0) 1
  have e4 : Real.log (4 : ℕ) = 2 * Real.log 2 := by
    rw [show ((4 : ℕ) : ℝ) = 2 ^ 2 by norm_num, Real.log_pow]
    norm_num
  have hl := Real.log_two_lt_d9
  have hl0 : 0 < Real.log 2 := Real.log_pos (by norm_num)
  refine ⟨N, _, _, 1 / 2 ^ 11, h1, hok, hs, ⟨fixed_toInt 0, fun _ _ _ v _ => fixed_toInt v⟩, h2, h3, h4, scope_order, fixed_std 100, fixed_int, by intro v hv; show (2 : Int) + 2 ≤ 4; omega, rfl, rfl, rfl, ?_, ?_, ?_⟩
  · rw [e4]
    norm_num
    linarith
  · rw [e4]
    norm_num
    linarith
  · norm_num

end GensExample

end Gospn
