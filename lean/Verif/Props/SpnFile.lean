import Verif.Model.SpnFile
import Verif.Proofs.Perturb
import Verif.Props.Serial
import Verif.Proofs.Multinom
/-
Property C115: what a network that was saved and loaded computes.
-/
set_option linter.unusedSectionVars false
set_option linter.unusedSimpArgs false

namespace Gospn
open Spec

namespace Spec
variable {ι : Type}

/-- Zero, or not below `m`. -/
def Coarse (m : ℝ) (xs : List XR) : Prop := ∃ r : List ℝ, xs = r.map XR.fin ∧ ∀ x ∈ r, x = 0 ∨ m ≤ x

/-- No positive weight and no positive probability of a multinomial is below `m`; sums have a weight for every child. -/
def CoarseNet (m : ℝ) (N : Net ι XR) (S : ι) : Prop :=
  ∀ n, Reach N.ch S n → match N.kind n with
    | .sum cs w => cs ≠ [] ∧ cs.length ≤ w.length ∧ Coarse m w
    | .product _ => True
    | .leaf (.multinomial _ _ pr _ _) => Coarse m pr
    | .leaf _ => True

/-- Every leaf gives a logarithm of a probability for the evidence. -/
def Evaluates (N : Net ι XR) (S : ι) (I : VarSet) : Prop := ∀ n l, Reach N.ch S n → N.kind n = .leaf l → ∃ x, l.value I = some x ∧ IsLogProb x

/-- Every leaf gives a logarithm of a probability for its most probable value, and a multinomial has a positive probability and records a largest one. -/
def EvaluatesMax (N : Net ι XR) (S : ι) (I : VarSet) : Prop := ∀ n l, Reach N.ch S n → N.kind n = .leaf l → (∃ x, l.max I = some x ∧ IsLogProb x) ∧
  ∀ sc v pr mi mv, l = .multinomial sc v pr mi mv → mv ∈ pr ∧ ∃ q : ℝ, mv = .fin q ∧ 0 < q ∧ ∀ r, XR.fin r ∈ pr → r ≤ q

end Spec

section
variable {ι F : Type} [DecidableEq ι] [Fintype ι] [GoFloat F]

/-- C115 (which file): after `SaveSPN(name, S)` without error, `LoadSPN(name)` gives what `Unmarshal` makes of the bytes of `S`, whatever was in the file before; other files are as they were. A
missing file is an error. -/
theorem C115_file (f6 : F → F) (fate : WriteFate F) (D : Disk F) (name : String) (N : Net ι F) (S : ι) :
    ((saveSPN f6 fate D name N S).2 = true → loadSPN (saveSPN f6 fate D name N S).1 name = (unmarshal (marshal f6 N S)).map some) ∧
    (∀ other, other ≠ name → loadSPN (saveSPN f6 fate D name N S).1 other = loadSPN D other) ∧ (D name = none → loadSPN D name = some none) := by
  refine ⟨fun h => ?_, fun other ho => ?_, fun h => ?_⟩
  · cases fate with
    | done => simp [saveSPN, loadSPN]
    | noFile => simp [saveSPN] at h
    | broken b => simp [saveSPN] at h
  · cases fate <;> simp [saveSPN, loadSPN, Function.update_of_ne ho]
  · simp [loadSPN, h]

end

/-- Rounding to six decimals moves a number that is zero or not too small by a small factor. -/
theorem sixDecimals_within {m x : ℝ} (hm : 1 / 1000000 ≤ m) (hx : x = 0 ∨ m ≤ x) : ParamWithin (1 / 1000000 / m) (.fin x) (sixDecimals (.fin x)) := by
  have hm0 : 0 < m := lt_of_lt_of_le (by norm_num) hm
  rcases hx with rfl | hx
  · exact ⟨0, 0, rfl, by simp [sixDecimals], le_rfl, le_rfl, by simp, by simp⟩
  · have hx0 : 0 < x := lt_of_lt_of_le hm0 hx
    have hr := abs_le.1 (abs_sub_round (x * 1000000))
    set k : ℤ := round (x * 1000000) with hk
    have hs1 : ((k : ℝ) / 1000000) ≤ x + 1 / 2000000 := by linarith [hr.1]
    have hs2 : x - 1 / 2000000 ≤ ((k : ℝ) / 1000000) := by linarith [hr.2]
    have hhalf : m / 2 ≤ ((k : ℝ) / 1000000) := by linarith
    refine ⟨x, (k : ℝ) / 1000000, rfl, by simp [sixDecimals, hk], hx0.le, by linarith, ?_, ?_⟩
    · have h1 : (1 : ℝ) / 1000000 / m * (m / 2) = 1 / 2000000 := by field_simp; norm_num
      have h2 : (1 : ℝ) / 1000000 / m * (m / 2) ≤ 1 / 1000000 / m * ((k : ℝ) / 1000000) := mul_le_mul_of_nonneg_left hhalf (by positivity)
      have h3 := Real.add_one_le_exp ((1 : ℝ) / 1000000 / m)
      have h4 := mul_le_mul_of_nonneg_right h3 (show 0 ≤ (k : ℝ) / 1000000 by linarith)
      linarith
    · have h1 : (1 : ℝ) / 1000000 / m * m = 1 / 1000000 := by field_simp
      have h2 : (1 : ℝ) / 1000000 / m * m ≤ 1 / 1000000 / m * x := mul_le_mul_of_nonneg_left hx (by positivity)
      have h3 := Real.add_one_le_exp ((1 : ℝ) / 1000000 / m)
      have h4 := mul_le_mul_of_nonneg_right h3 hx0.le
      linarith

theorem coarse_within {m : ℝ} (hm : 1 / 1000000 ≤ m) {xs : List XR} (h : Coarse m xs) : List.Forall₂ (ParamWithin (1 / 1000000 / m)) xs (xs.map sixDecimals) := by
  obtain ⟨r, rfl, hr⟩ := h
  rw [List.forall₂_map_right_iff, List.forall₂_same]
  intro x hx
  obtain ⟨y, hy, rfl⟩ := List.mem_map.1 hx
  exact sixDecimals_within hm (hr y hy)

section
variable {ι : Type} [DecidableEq ι] [Fintype ι]

theorem within_self {e : ℝ} (he : 0 ≤ e) {x : XR} (hx : IsLogProb x) : Within e x x := by
  rcases IsLogProb.cases hx with rfl | ⟨a, rfl⟩
  · trivial
  · simp [Within, he]

theorem goIdx_forall₂ {R : XR → XR → Prop} {xs ys : List XR} (h : List.Forall₂ R xs ys) (i : Int) {x : XR} (hx : goIdx xs i = some x) : ∃ y, goIdx ys i = some y ∧ R x y := by
  unfold goIdx at hx ⊢
  split at hx
  · cases hx
  · rename_i hi
    rw [if_neg hi]
    exact forall₂_index h hx

/-- The leaf written with six decimals. -/
theorem stored_leaf_value {m : ℝ} (hm : 1 / 1000000 ≤ m) {l l' : Leaf XR} {I : VarSet} (hc : ∀ sc v pr mi mv, l = .multinomial sc v pr mi mv → Coarse m pr)
    (hl : ∃ x, l.value I = some x ∧ IsLogProb x) (h : storedKind (ι := ι) sixDecimals (.leaf l) = .leaf l') :
    ∃ x y, l.value I = some x ∧ l'.value I = some y ∧ Within (1 / 1000000 / m) x y := by
  have hδ : (0 : ℝ) ≤ 1 / 1000000 / m := by have : (0 : ℝ) < m := lt_of_lt_of_le (by norm_num) hm; positivity
  obtain ⟨x, hx, hlp⟩ := hl
  cases l with
  | indicator v k =>
    simp only [storedKind, Kind.leaf.injEq] at h
    subst h
    exact ⟨x, x, hx, hx, within_self hδ hlp⟩
  | gaussian v mu sigma =>
    simp only [storedKind, Kind.leaf.injEq] at h
    subst h
    exact ⟨x, x, hx, hx, within_self hδ hlp⟩
  | multinomial sc v pr mi mv =>
    simp only [storedKind, Kind.leaf.injEq] at h
    subst h
    have hf := coarse_within hm (hc sc v pr mi mv rfl)
    simp only [Leaf.value] at hx ⊢
    cases hI : I v with
    | none =>
      rw [hI] at hx
      exact ⟨x, x, hx, hx, within_self hδ hlp⟩
    | some u =>
      rw [hI] at hx
      simp only at hx ⊢
      obtain ⟨p, hp, rfl⟩ := Option.map_eq_some_iff.1 hx
      obtain ⟨p', hp', hpp⟩ := goIdx_forall₂ hf u hp
      exact ⟨_, _, by rw [hp]; rfl, by rw [hp']; rfl, paramWithin_log hpp⟩

theorem stored_ch (f6 : XR → XR) (N : Net ι XR) (n : ι) : (stored f6 N).ch n = N.ch n := by
  simp only [Net.ch, stored]
  cases hk : N.kind n with
  | leaf l => cases l <;> rfl
  | sum cs w => rfl
  | product cs => rfl

theorem stored_perturbed {m : ℝ} (hm : 1 / 1000000 ≤ m) {N : Net ι XR} {S : ι} (hc : CoarseNet m N S) {P : Leaf XR → Leaf XR → Prop}
    (hP : ∀ n l l', Reach N.ch S n → N.kind n = .leaf l → storedKind (ι := ι) sixDecimals (.leaf l) = .leaf l' → P l l') (n : ι) (hn : Reach N.ch S n) :
    PerturbedNode (1 / 1000000 / m) P (N.kind n) ((stored sixDecimals N).kind n) := by
  have := hc n hn
  simp only [stored]
  cases hk : N.kind n with
  | sum cs w =>
    simp only [hk] at this
    exact ⟨rfl, this.1, this.2.1, coarse_within hm this.2.2⟩
  | product cs => exact rfl
  | leaf l =>
    obtain ⟨l', hl'⟩ : ∃ l', storedKind (ι := ι) sixDecimals (.leaf l) = .leaf l' := by cases l <;> exact ⟨_, rfl⟩
    rw [hl']
    exact hP n l l' hn hk hl'

theorem coarse_leaf {m : ℝ} {N : Net ι XR} {S : ι} (hc : CoarseNet m N S) {n : ι} {l : Leaf XR} (hn : Reach N.ch S n) (hk : N.kind n = .leaf l) :
    ∀ sc v pr mi mv, l = .multinomial sc v pr mi mv → Coarse m pr := by
  rintro sc v pr mi mv rfl
  have := hc n hn
  simpa [hk] using this

/-- C115, part: let the network be one that `Unmarshal` restores (C30), let no positive weight or probability be below `m ≥ 10⁻⁶`, and let a value be a product of at most `count S` parameters. Then the
network loaded from the file gives every evidence a probability that differs from the one before saving by a factor of at most `exp(count S · 10⁻⁶ / m)`; it is zero for the same evidence. -/
theorem C115_value_partial (N : Net ι XR) (S : ι) (D : Disk XR) (name : String) (m : ℝ) (count : ι → ℕ) (hac : Acyclic N.ch) (hso : SiblingOrdered N.ch S) (hn : Fintype.card ι < 4294967296)
    (hm : 1 / 1000000 ≤ m) (hc : CoarseNet m N S) (hcount : ParamCount N S count) :
    ∃ (ks : List (Option (Kind Nat XR))) (r : Nat) (h : r < ks.length), loadSPN (saveSPN sixDecimals .done D name N S).1 name = some (some (ks, r)) ∧
      ∀ I, Evaluates N S I → ∃ x y, N.value I S = some x ∧ (netOf ks).value I ⟨r, h⟩ = some y ∧ Within (1 / 1000000 / m * count S) x y := by
  have hδ : (0 : ℝ) ≤ 1 / 1000000 / m := by have : (0 : ℝ) < m := lt_of_lt_of_le (by norm_num) hm; positivity
  obtain ⟨ks, r, hu, h, f, _, hf, _, hk⟩ := C30_copy_partial sixDecimals N S hac hso hn
  have hac' : Acyclic (stored sixDecimals N).ch := by rw [funext (stored_ch sixDecimals N)]; exact hac
  refine ⟨ks, r, h, by rw [(C115_file sixDecimals .done D name N S).1 rfl, hu]; rfl, fun I hI => ?_⟩
  rw [(copy_results hk hac' I _).1, hf]
  exact value_perturbed hac hδ (stored_ch sixDecimals N) (stored_perturbed hm hc fun n l l' h1 h2 h3 => stored_leaf_value hm (coarse_leaf hc h1 h2) (hI n l h1 h2) h3) hcount S Relation.ReflTransGen.refl

/-- C115, part (comparing instances): what was more probable than something else by a factor of more than `exp(2 · count S · 10⁻⁶ / m)` is still more probable after loading. -/
theorem C115_ranking_partial (N : Net ι XR) (S : ι) (D : Disk XR) (name : String) (m : ℝ) (count : ι → ℕ) (hac : Acyclic N.ch) (hso : SiblingOrdered N.ch S) (hn : Fintype.card ι < 4294967296)
    (hm : 1 / 1000000 ≤ m) (hc : CoarseNet m N S) (hcount : ParamCount N S count) :
    ∃ (ks : List (Option (Kind Nat XR))) (r : Nat) (h : r < ks.length), loadSPN (saveSPN sixDecimals .done D name N S).1 name = some (some (ks, r)) ∧
      ∀ I J, Evaluates N S I → Evaluates N S J → ∀ x z, N.value I S = some x → N.value J S = some z → Real.exp (2 * (1 / 1000000 / m * count S)) * unlog z < unlog x →
        ∃ x' z', (netOf ks).value I ⟨r, h⟩ = some x' ∧ (netOf ks).value J ⟨r, h⟩ = some z' ∧ XR.lt z' x' = true := by
  obtain ⟨ks, r, h, h1, h2⟩ := C115_value_partial N S D name m count hac hso hn hm hc hcount
  refine ⟨ks, r, h, h1, fun I J hI hJ x z hx hz hlt => ?_⟩
  obtain ⟨x0, x', e1, e2, e3⟩ := h2 I hI
  obtain ⟨z0, z', g1, g2, g3⟩ := h2 J hJ
  rw [hx] at e1
  rw [hz] at g1
  cases e1
  cases g1
  refine ⟨x', z', e2, g2, (lt_iff_unlog g3.isLogProb.2 e3.isLogProb.2).2 ?_⟩
  set E := 1 / 1000000 / m * (count S : ℝ) with hE
  have a1 := (close_unlog e3).1
  have a2 := (close_unlog g3).2
  have he : Real.exp (2 * E) = Real.exp E * Real.exp E := by rw [← Real.exp_add]; congr 1; ring
  rw [he] at hlt
  have hp := Real.exp_pos E
  by_contra hcon
  push Not at hcon
  have b1 : Real.exp E * unlog x' ≤ Real.exp E * unlog z' := mul_le_mul_of_nonneg_left hcon hp.le
  have b2 : Real.exp E * unlog z' ≤ Real.exp E * (Real.exp E * unlog z) := mul_le_mul_of_nonneg_left a2 hp.le
  linarith

theorem stored_leaf_max {m : ℝ} (hm : 1 / 1000000 ≤ m) {l l' : Leaf XR} {I : VarSet} (hc : ∀ sc v pr mi mv, l = .multinomial sc v pr mi mv → Coarse m pr)
    (hl : ∃ x, l.max I = some x ∧ IsLogProb x) (hmode : ∀ sc v pr mi mv, l = .multinomial sc v pr mi mv → mv ∈ pr ∧ ∃ q : ℝ, mv = .fin q ∧ 0 < q ∧ ∀ r, XR.fin r ∈ pr → r ≤ q)
    (h : storedKind (ι := ι) sixDecimals (.leaf l) = .leaf l') :
    ∃ x y, l.max I = some x ∧ l'.max I = some y ∧ Within (1 / 1000000 / m) x y := by
  have hm0 : (0 : ℝ) < m := lt_of_lt_of_le (by norm_num) hm
  have hδ : (0 : ℝ) ≤ 1 / 1000000 / m := by positivity
  obtain ⟨x, hx, hlp⟩ := hl
  cases l with
  | indicator v k =>
    simp only [storedKind, Kind.leaf.injEq] at h
    subst h
    exact ⟨x, x, hx, hx, within_self hδ hlp⟩
  | gaussian v mu sigma =>
    simp only [storedKind, Kind.leaf.injEq] at h
    subst h
    exact ⟨x, x, hx, hx, within_self hδ hlp⟩
  | multinomial sc v pr mi mv =>
    simp only [storedKind, Kind.leaf.injEq] at h
    subst h
    have hco := hc sc v pr mi mv rfl
    have hf := coarse_within hm hco
    simp only [Leaf.max] at hx ⊢
    cases hI : I v with
    | none =>
      simp only
      refine ⟨_, _, rfl, rfl, paramWithin_log ?_⟩
      obtain ⟨hmem, q, rfl, hq0, hmax⟩ := hmode sc v pr mi mv rfl
      obtain ⟨rs, rfl, hrs⟩ := hco
      have hmap : (rs.map XR.fin).map sixDecimals = (rs.map fun x : ℝ => (round (x * 1000000) : ℝ) / 1000000).map XR.fin := by
        rw [List.map_map, List.map_map]
        exact List.map_congr_left fun a _ => by simp [sixDecimals]
      have hpos : ∀ a ∈ rs, 0 ≤ a := fun a ha => by rcases hrs a ha with rfl | h'; exacts [le_rfl, by linarith]
      have hmemq : q ∈ rs := by
        obtain ⟨a, ha, e⟩ := List.mem_map.1 hmem
        cases e
        exact ha
      have hpw : ∀ a ∈ rs, ParamWithin (1 / 1000000 / m) (.fin a) (.fin ((round (a * 1000000) : ℝ) / 1000000)) := fun a ha => by
        simpa [sixDecimals] using sixDecimals_within hm (hrs a ha)
      have hpw' : ∀ a ∈ rs, a ≤ Real.exp (1 / 1000000 / m) * ((round (a * 1000000) : ℝ) / 1000000) ∧ ((round (a * 1000000) : ℝ) / 1000000) ≤ Real.exp (1 / 1000000 / m) * a ∧
          0 ≤ ((round (a * 1000000) : ℝ) / 1000000) := fun a ha => by
        obtain ⟨r, s, e1, e2, h1, h2, h3, h4⟩ := hpw a ha
        cases e1
        cases e2
        exact ⟨h3, h4, h2⟩
      have hexp := Real.exp_pos (1 / 1000000 / m)
      obtain ⟨k, t, e, hk, ht⟩ := computeMode_spec (rs.map fun x : ℝ => (round (x * 1000000) : ℝ) / 1000000) (by
          intro y hy
          obtain ⟨a, ha, rfl⟩ := List.mem_map.1 hy
          exact (hpw' a ha).2.2) ⟨_, List.mem_map.2 ⟨q, hmemq, rfl⟩, by
            obtain ⟨h1, _, h3⟩ := hpw' q hmemq
            rcases lt_or_eq_of_le h3 with h | h
            · exact h
            · rw [← h, mul_zero] at h1; linarith⟩
      rw [hmap, e]
      obtain ⟨a, ha, hat⟩ := List.mem_map.1 (List.mem_of_getElem? hk)
      refine ⟨q, t, rfl, rfl, hq0.le, ?_, ?_, ?_⟩
      · rw [← hat]; exact (hpw' a ha).2.2
      · have h1 := (hpw' q hmemq).1
        have h2 := ht _ (List.mem_map.2 ⟨q, hmemq, rfl⟩)
        have h3 := mul_le_mul_of_nonneg_left h2 hexp.le
        exact le_trans h1 h3
      · rw [← hat]
        have h1 := (hpw' a ha).2.1
        have h2 := hmax a (List.mem_map.2 ⟨a, ha, rfl⟩)
        exact le_trans h1 (mul_le_mul_of_nonneg_left h2 hexp.le)
    | some u =>
      rw [hI] at hx
      simp only at hx ⊢
      obtain ⟨p, hp, rfl⟩ := Option.map_eq_some_iff.1 hx
      obtain ⟨p', hp', hpp⟩ := goIdx_forall₂ hf u hp
      exact ⟨_, _, by rw [hp]; rfl, by rw [hp']; rfl, paramWithin_log hpp⟩

/-- C115, part (most probable explanations): the value of `Max` moves by no more than that either, although the modes of multinomials are found again. -/
theorem C115_max_partial (N : Net ι XR) (S : ι) (D : Disk XR) (name : String) (m : ℝ) (count : ι → ℕ) (hac : Acyclic N.ch) (hso : SiblingOrdered N.ch S) (hn : Fintype.card ι < 4294967296)
    (hm : 1 / 1000000 ≤ m) (hc : CoarseNet m N S) (hcount : ParamCount N S count) :
    ∃ (ks : List (Option (Kind Nat XR))) (r : Nat) (h : r < ks.length), loadSPN (saveSPN sixDecimals .done D name N S).1 name = some (some (ks, r)) ∧
      ∀ I, EvaluatesMax N S I → ∃ x y, N.max I S = some x ∧ (netOf ks).max I ⟨r, h⟩ = some y ∧ Within (1 / 1000000 / m * count S) x y := by
  have hδ : (0 : ℝ) ≤ 1 / 1000000 / m := by have : (0 : ℝ) < m := lt_of_lt_of_le (by norm_num) hm; positivity
  obtain ⟨ks, r, hu, h, f, _, hf, _, hk⟩ := C30_copy_partial sixDecimals N S hac hso hn
  have hac' : Acyclic (stored sixDecimals N).ch := by rw [funext (stored_ch sixDecimals N)]; exact hac
  refine ⟨ks, r, h, by rw [(C115_file sixDecimals .done D name N S).1 rfl, hu]; rfl, fun I hI => ?_⟩
  rw [(copy_results hk hac' I _).2.1, hf]
  exact max_perturbed hac hδ (stored_ch sixDecimals N) (stored_perturbed hm hc fun n l l' h1 h2 h3 => stored_leaf_max hm (coarse_leaf hc h1 h2) (hI n l h1 h2).1 (hI n l h1 h2).2 h3) hcount S
    Relation.ReflTransGen.refl

/-- In a decomposable network of height `h` over `s` variables, `s·(2h + 1)` is a bound on the number of parameters. -/
theorem C115_count (N : Net ι XR) (S : ι) (rank : ι → ℕ) (hrank : ∀ u, ∀ c ∈ N.ch u, rank c < rank u) (hdec : IsDecomposable N S) (hsc : ∀ n, Reach N.ch S n → ∃ v, InScope N n v) :
    ParamCount N S fun n => scopeSize N n * (2 * rank n + 1) := count_scope hrank hdec hsc

end

/-- A distribution over one variable: 1 has probability 10⁻⁷, 0 the rest. -/
noncomputable def rareNet : Net (Fin 3) XR := ⟨![.sum [1, 2] [.fin (1 / 10000000), .fin (9999999 / 10000000)], .leaf (.indicator 0 1), .leaf (.indicator 0 0)]⟩

theorem rareNet_ch : rareNet.ch = ![[1, 2], [], []] := by funext i; fin_cases i <;> rfl

theorem rareNet_acyclic : Acyclic rareNet.ch := by rw [rareNet_ch]; exact ⟨![1, 0, 0], by decide⟩

theorem rareNet_ordered : SiblingOrdered rareNet.ch 0 := by
  apply TransitivelyReduced.siblingOrdered
  rw [rareNet_ch]
  intro w _ a ha b hb hr
  fin_cases w
  · have hleaf : ∀ c : Fin 3, c ≠ 0 → ∀ d, Reach ![[1, 2], [], []] c d → d = c := by
      intro c hc d hd
      rcases Relation.ReflTransGen.cases_head hd with rfl | ⟨e, he, _⟩
      · rfl
      · exfalso; fin_cases c <;> simp_all
    fin_cases a <;> fin_cases b <;> first | (simp at ha; done) | (simp at hb; done) | rfl | (have := hleaf _ (by decide) _ hr; simp at this)
  · simp at ha
  · simp at ha

/-- C115 is false without a bound on the parameters: an instance of probability 10⁻⁷ under a proper distribution is impossible under the loaded network. -/
theorem C115_refuted (D : Disk XR) (name : String) : ∃ (ks : List (Option (Kind Nat XR))) (r : Nat) (h : r < ks.length), loadSPN (saveSPN sixDecimals .done D name rareNet 0).1 name = some (some (ks, r)) ∧
    DistWeights rareNet 0 ∧ rareNet.value (fun _ => some 1) 0 = some (.fin (Real.log (1 / 10000000))) ∧ (netOf ks).value (fun _ => some 1) ⟨r, h⟩ = some .ninf := by
  have hac := rareNet_acyclic
  have h6 : sixDecimals (.fin (1 / 10000000)) = .fin 0 := by
    have : round ((1 : ℝ) / 10000000 * 1000000) = 0 := by
      rw [round_eq, Int.floor_eq_zero_iff]; constructor <;> norm_num
    simp only [sixDecimals, this]; simp
  obtain ⟨ks, r, hu, h, f, _, hf, _, hk⟩ := C30_copy_partial sixDecimals rareNet 0 hac rareNet_ordered (by simp)
  refine ⟨ks, r, h, by rw [(C115_file sixDecimals .done D name rareNet 0).1 rfl, hu]; rfl, ?_, ?_, ?_⟩
  · intro n _ cs w hk
    fin_cases n
    · cases hk
      exact ⟨[1 / 10000000, 9999999 / 10000000], rfl, rfl, by intro x hx; simp at hx; rcases hx with rfl | rfl <;> norm_num, by norm_num⟩
    · cases hk
    · cases hk
  · have h1 : rareNet.value (fun _ => some 1) 1 = some (.fin 0) := by
      rw [Net.value_unfold hac]; simp [Net.valueStep, rareNet, Leaf.value]
    have h2 : rareNet.value (fun _ => some 1) 2 = some .ninf := by
      rw [Net.value_unfold hac]; simp [Net.valueStep, rareNet, Leaf.value]
    rw [Net.value_unfold hac]
    have : rareNet.kind 0 = .sum [1, 2] [.fin (1 / 10000000), .fin (9999999 / 10000000)] := rfl
    simp only [Net.valueStep, this, List.mapM_cons, List.mapM_nil, h1, h2]
    simp [weighted, logSumExp, XR.lt, XR.log]
  · have hac' : Acyclic (stored sixDecimals rareNet).ch := by rw [funext (stored_ch sixDecimals rareNet)]; exact hac
    rw [(copy_results hk hac' _ _).1, hf]
    have h1 : (stored sixDecimals rareNet).value (fun _ => some 1) 1 = some (.fin 0) := by
      rw [Net.value_unfold hac']; simp [Net.valueStep, rareNet, stored, storedKind, Leaf.value]
    have h2 : (stored sixDecimals rareNet).value (fun _ => some 1) 2 = some .ninf := by
      rw [Net.value_unfold hac']; simp [Net.valueStep, rareNet, stored, storedKind, Leaf.value]
    rw [Net.value_unfold hac']
    have : ∃ t : ℝ, (stored sixDecimals rareNet).kind 0 = .sum [1, 2] [.fin 0, .fin t] ∧ 0 < t := by
      refine ⟨_, by show storedKind sixDecimals (.sum [1, 2] [.fin (1 / 10000000), .fin (9999999 / 10000000)]) = _; simp only [storedKind, List.map_cons, List.map_nil, h6]; rfl, ?_⟩
      have : (0 : ℤ) < round ((9999999 : ℝ) / 10000000 * 1000000) := by
        rw [round_eq, Int.floor_pos]; norm_num
      have : (0 : ℝ) < (round ((9999999 : ℝ) / 10000000 * 1000000) : ℤ) := by exact_mod_cast this
      positivity
    obtain ⟨t, ht, ht0⟩ := this
    simp only [Net.valueStep, ht, List.mapM_cons, List.mapM_nil, h1, h2]
    have hl : XR.log (.fin t) = .fin (Real.log t) := XR.log_pos ht0
    simp [weighted, logSumExp, hl, XR.lt]

/-- The same with probabilities 1/4 and 3/4. -/
noncomputable def commonNet : Net (Fin 3) XR := ⟨![.sum [1, 2] [.fin (1 / 4), .fin (3 / 4)], .leaf (.indicator 0 1), .leaf (.multinomial [0] 0 [.fin (1 / 3), .fin (2 / 3)] 1 (.fin (2 / 3)))]⟩

example : Acyclic commonNet.ch ∧ SiblingOrdered commonNet.ch 0 ∧ CoarseNet (1 / 4) commonNet 0 ∧ ParamCount commonNet 0 ![2, 1, 1] ∧ Evaluates commonNet 0 (fun _ => some 1) ∧
    EvaluatesMax commonNet 0 (fun _ => none) := by
  have hch : commonNet.ch = rareNet.ch := by rw [rareNet_ch]; funext i; fin_cases i <;> rfl
  refine ⟨by rw [hch]; exact rareNet_acyclic, by rw [hch]; exact rareNet_ordered, ?_, ?_, ?_, ?_⟩
  · intro n _
    fin_cases n
    · exact ⟨by simp, by simp, [1 / 4, 3 / 4], rfl, by intro x hx; simp at hx; right; rcases hx with rfl | rfl <;> norm_num⟩
    · trivial
    · exact ⟨[1 / 3, 2 / 3], rfl, by intro x hx; simp at hx; right; rcases hx with rfl | rfl <;> norm_num⟩
  · intro n _
    fin_cases n
    · intro c hc
      fin_cases c <;> first | (simp at hc; done) | decide
    · exact le_refl 1
    · exact le_refl 1
  · intro n l _ hk
    fin_cases n
    · cases hk
    · cases hk; exact ⟨.fin 0, by simp [Leaf.value], trivial⟩
    · cases hk
      refine ⟨XR.log (.fin (2 / 3)), ?_, (log_nonneg_spec (by norm_num)).1⟩
      simp [Leaf.value, goIdx]
  · intro n l _ hk
    fin_cases n
    · cases hk
    · cases hk
      exact ⟨⟨.fin 0, by simp [Leaf.max], trivial⟩, fun _ _ _ _ _ h => by cases h⟩
    · cases hk
      refine ⟨⟨XR.log (.fin (2 / 3)), rfl, (log_nonneg_spec (by norm_num)).1⟩, fun sc v pr mi mv h => ?_⟩
      cases h
      refine ⟨by simp, 2 / 3, rfl, by norm_num, fun r hr => ?_⟩
      simp at hr
      rcases hr with rfl | rfl <;> norm_num

end Gospn
