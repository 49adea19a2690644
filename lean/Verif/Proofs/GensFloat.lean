/-
Networks learned in floating point arithmetic: where their parameters come from, and the network of real numbers that they stand for.
-/
import Verif.Spec.IntFloat
import Verif.Proofs.Rounding
import Verif.Proofs.GensLeaves
import Verif.Props.Gens

set_option linter.unusedSectionVars false
set_option linter.unusedSimpArgs false

namespace Gospn
open GoFloat Spec
variable {ι F : Type} [GoFloat F] {val : F → XR}

/-- The quotient of two counts, in floats and exactly. -/
theorem quotient_stores {u δ : ℝ} {Z : ℕ} (hZ : IntFloat val u Z) (hu : u ≤ 1 / 2) (hδ : 2 * u ≤ δ) {n m : ℕ} (a b : F) (ha : val a = .fin m) (hb : val b = .fin n) (hmn : m ≤ n) (hn : 0 < n) (hnZ : n ≤ Z)
    {L : ℝ} (hL : Real.log n ≤ L) : Stores val L δ (div a b) (.fin ((m : ℝ) / n)) := by
  obtain ⟨z, hz, he⟩ := hZ.div a b m n ha hb hmn hn hnZ
  have hn' : (0 : ℝ) < n := by exact_mod_cast hn
  have hr : 0 ≤ (m : ℝ) / n := by positivity
  rcases Nat.eq_zero_or_pos m with rfl | hm
  · have : z = 0 := by simpa using he
    subst this
    exact ⟨0, _, hz, rfl, le_rfl, hr, by simp, fun h => absurd (by simp) h⟩
  · have hm' : (1 : ℝ) ≤ m := by exact_mod_cast hm
    have hrp : 0 < (m : ℝ) / n := by positivity
    obtain ⟨h1, h2⟩ := abs_le.1 he
    have hzlo : (1 - u) * ((m : ℝ) / n) ≤ z := by linarith
    have hzp : 0 < z := lt_of_lt_of_le (mul_pos (by linarith) hrp) hzlo
    refine ⟨z, _, hz, rfl, hzp.le, hr, ⟨fun h => absurd h hzp.ne', fun h => absurd h hrp.ne'⟩, fun _ => ⟨?_, ?_⟩⟩
    · have h3 : (m : ℝ) / n ≤ 1 := (div_le_one hn').2 (by exact_mod_cast hmn)
      have h4 : 1 / (n : ℝ) ≤ (m : ℝ) / n := by gcongr
      have h5 := Real.log_le_log (by positivity) h4
      rw [one_div, Real.log_inv] at h5
      rw [abs_of_nonpos (Real.log_nonpos hr h3)]
      linarith
    · rw [← Real.log_div hzp.ne' hrp.ne']
      have hq : 0 < z / ((m : ℝ) / n) := div_pos hzp hrp
      have hq1 : z / ((m : ℝ) / n) ≤ 1 + u := by rw [div_le_iff₀ hrp]; linarith
      have hq2 : 1 - u ≤ z / ((m : ℝ) / n) := by rw [le_div_iff₀ hrp]; exact hzlo
      rw [abs_le]
      constructor
      · have h5 := Real.one_sub_inv_le_log_of_pos hq
        have h6 : (z / ((m : ℝ) / n))⁻¹ ≤ (1 - u)⁻¹ := inv_anti₀ (by linarith) hq2
        have h7 : (1 - u)⁻¹ ≤ 1 + 2 * u := by
          rw [inv_le_iff_one_le_mul₀ (by linarith)]
          have hu0 : 0 ≤ u := by
            by_contra hneg
            have : u * ((m : ℝ) / n) < 0 := mul_neg_of_neg_of_pos (not_le.1 hneg) hrp
            have := abs_nonneg (z - (m : ℝ) / n)
            linarith
          nlinarith
        linarith
      · have h5 := Real.log_le_sub_one_of_pos hq
        have hu0 : 0 ≤ u := by linarith
        linarith

/-- The total that smoothing computes is exact. -/
theorem smoothed_total {u : ℝ} {Z : ℕ} (hZ : IntFloat val u Z) : ∀ (l : List Int) (a : F) (k : Int), val a = .fin k → 0 ≤ k → (∀ c ∈ l, 0 ≤ c) → k + l.sum + l.length ≤ Z →
    val (l.foldl (fun s c => GoFloat.add s (GoFloat.add (GoFloat.ofInt 1) (GoFloat.ofInt c))) a) = .fin ((k + l.sum + l.length : Int) : ℝ) := by
  intro l
  induction l with
  | nil => intro a k ha _ _ _; simpa using ha
  | cons c l ih =>
    intro a k ha hk hl hle
    have hc := hl c (by simp)
    have hs : 0 ≤ l.sum := List.sum_nonneg fun x hx => hl x (by simp [hx])
    simp only [List.sum_cons, List.length_cons] at hle
    push_cast at hle
    have h1 := hZ.ofInt 1 (by rw [abs_of_nonneg (by norm_num)]; omega)
    have h2 := hZ.ofInt c (by rw [abs_of_nonneg hc]; omega)
    have h3 := hZ.add _ _ 1 c h1 h2 (by rw [abs_of_nonneg (by omega)]; omega)
    have h4 := hZ.add _ _ k (1 + c) ha h3 (by rw [abs_of_nonneg (by omega)]; omega)
    rw [List.foldl_cons, ih _ (k + (1 + c)) h4 (by omega) (fun x hx => hl x (by simp [hx])) (by omega)]
    congr 2
    simp only [List.sum_cons, List.length_cons]
    push_cast
    ring

/-- Smoothed frequencies, in floats and exactly. -/
theorem smoothed_stores {u δ : ℝ} {Z : ℕ} (hZ : IntFloat val u Z) (hu : u ≤ 1 / 2) (hδ : 2 * u ≤ δ) (c : List Int) (hc : ∀ x ∈ c, 0 ≤ x) (hne : c ≠ []) {n : ℕ} (hn : c.sum + c.length ≤ n) (hnZ : n ≤ Z) :
    List.Forall₂ (Stores val (Real.log n) δ) (smoothed c) ((c.map fun x : Int => ((x : ℝ) + 1) / ((c.sum : ℝ) + c.length)).map XR.fin) := by
  have hs : 0 ≤ c.sum := List.sum_nonneg hc
  have hlen : 0 < c.length := List.length_pos_iff.2 hne
  have h0 := hZ.ofInt 0 (by simp)
  have ht := smoothed_total hZ c (GoFloat.ofInt 0) 0 h0 le_rfl hc (by omega)
  obtain ⟨s, hsn⟩ : ∃ s : ℕ, (s : Int) = c.sum + c.length := ⟨(c.sum + c.length).toNat, by omega⟩
  unfold smoothed
  rw [List.map_map, List.forall₂_map_left_iff, List.forall₂_map_right_iff, List.forall₂_same]
  intro x hx
  have hx0 := hc x hx
  have hxs : x ≤ c.sum := List.single_le_sum hc x hx
  obtain ⟨m, hm⟩ : ∃ m : ℕ, (m : Int) = 1 + x := ⟨(1 + x).toNat, by omega⟩
  have e : ((x : ℝ) + 1) / ((c.sum : ℝ) + c.length) = (m : ℝ) / s := by
    have h1 : (m : ℝ) = 1 + x := by exact_mod_cast hm
    have h2 : (s : ℝ) = c.sum + c.length := by exact_mod_cast hsn
    rw [h1, h2, add_comm]
  rw [Function.comp, e]
  refine quotient_stores hZ hu hδ _ _ ?_ ?_ (by omega) (by omega) (by omega) (Real.log_le_log (by exact_mod_cast (by omega : 0 < s)) (by exact_mod_cast (by omega : s ≤ n)))
  · rw [hZ.ofInt (1 + x) (by rw [abs_of_nonneg (by omega)]; omega)]
    congr 1
    exact_mod_cast hm.symm
  · rw [ht]
    congr 1
    have : ((0 + c.sum + c.length : Int)) = (s : Int) := by omega
    rw [this]
    simp

/-- What is stored at a node of a learned network, and what it stands for: weights are shares of at most `n` instances, probabilities are smoothed frequencies in at most `n` instances. -/
def Exact (n : ℕ) (cats : Int → Int) : Kind ι F → Kind ι XR → Prop
  | .sum cs w, .sum ds q => cs = ds ∧ ∃ (c : List ℕ) (m : ℕ), 0 < m ∧ m ≤ n ∧ c.sum = m ∧ c.length = cs.length ∧
      w = c.map (fun a : ℕ => div (ofInt (a : Int)) (ofInt (m : Int))) ∧ q = (c.map fun a : ℕ => (a : ℝ) / m).map XR.fin
  | .product cs, .product ds => cs = ds
  | .leaf l, .leaf e => ∃ (sc : List Int) (v : Int) (k : Int) (mv : F) (k' : Int) (mv' : XR) (c : List Int), (∀ x ∈ c, 0 ≤ x) ∧ (c.length : Int) = cats v ∧ 0 < cats v ∧ c.sum ≤ (n : Int) ∧ l = .multinomial sc v (smoothed c) k mv ∧
      e = .multinomial sc v ((c.map fun x : Int => ((x : ℝ) + 1) / ((c.sum : ℝ) + c.length)).map XR.fin) k' mv'
  | _, _ => False

/-- The network of real numbers that a learned network stands for. -/
noncomputable def exactNet (N : Net ι F) (n : ℕ) (cats : Int → Int) : Net ι XR :=
  ⟨fun i => open Classical in if h : ∃ q, Exact n cats (N.kind i) q then h.choose else .product (N.ch i)⟩

theorem exactNet_kind {N : Net ι F} {n : ℕ} {cats : Int → Int} {i : ι} (h : ∃ q, Exact n cats (N.kind i) q) : Exact n cats (N.kind i) ((exactNet N n cats).kind i) := by
  simp only [exactNet, dif_pos h]
  exact h.choose_spec

theorem exact_ch {n : ℕ} {cats : Int → Int} {N : Net ι F} {M : Net ι XR} {i : ι} (h : Exact n cats (N.kind i) (M.kind i)) : M.ch i = N.ch i := by
  unfold Net.ch
  cases hk : N.kind i <;> cases hm : M.kind i <;> rw [hk, hm] at h <;> simp only [Exact] at h
  · exact h.1.symm
  · exact h.symm

theorem exactNet_ch (N : Net ι F) (n : ℕ) (cats : Int → Int) (i : ι) : (exactNet N n cats).ch i = N.ch i := by
  by_cases h : ∃ q, Exact n cats (N.kind i) q
  · exact exact_ch (exactNet_kind h)
  · unfold Net.ch
    simp only [exactNet, dif_neg h]
    rfl

/-- Where the stored values come from carries over to the exact ones. -/
theorem exact_sum {n : ℕ} {cats : Int → Int} {cs : List ι} {w : List F} {q : Kind ι XR} (h : Exact n cats (.sum cs w) q) :
    ∃ r : List ℝ, q = .sum cs (r.map XR.fin) ∧ r.length = cs.length ∧ (∀ x ∈ r, 0 ≤ x) ∧ r.sum = 1 := by
  cases q <;> simp only [Exact] at h
  obtain ⟨rfl, c, m, hm, _, hs, hl, _, rfl⟩ := h
  refine ⟨_, rfl, by simpa using hl, ?_, ?_⟩
  · intro x hx
    obtain ⟨a, _, rfl⟩ := List.mem_map.1 hx
    positivity
  · have : ∀ l : List ℕ, (l.map fun a : ℕ => (a : ℝ) / m).sum = ((l.sum : ℕ) : ℝ) / m := by
      intro l
      induction l with
      | nil => simp
      | cons d l ih => rw [List.map_cons, List.sum_cons, ih, List.sum_cons]; push_cast; ring
    rw [this, hs]
    exact div_self (by exact_mod_cast hm.ne')

theorem exact_leaf {n : ℕ} {cats : Int → Int} {l : Leaf F} {q : Kind ι XR} (h : Exact n cats (.leaf l) q) : ∃ e, q = .leaf e ∧ DiscreteLeaf (catDom cats) e ∧ leafVar e = leafVar l := by
  cases q <;> simp only [Exact] at h
  obtain ⟨sc, v, k, mv, k', mv', c, h1, h2, h3, h4, rfl, rfl⟩ := h
  have hne : c ≠ [] := by rintro rfl; simp at h2; omega
  obtain ⟨d1, d2⟩ := smoothed_dist c h1 hne
  refine ⟨_, rfl, ⟨_, rfl, fun x hx => (d1 x hx).le, d2, fun x => ?_⟩, rfl⟩
  unfold catDom
  rw [Finset.mem_Ico, List.length_map, h2]

/-- A list that is a permutation of an image is the image of a permutation. -/
theorem perm_map_exists {α β : Type} (f : α → β) : ∀ (l : List β) (q : List α), l.Perm (q.map f) → ∃ r : List α, l = r.map f ∧ r.Perm q := by
  intro l
  induction l with
  | nil =>
    intro q h
    have : q = [] := by simpa using h.symm
    exact ⟨[], rfl, by rw [this]⟩
  | cons a l ih =>
    intro q h
    classical
    obtain ⟨b, hb, rfl⟩ := List.mem_map.1 (h.mem_iff.1 (List.mem_cons_self ..))
    have hp := List.perm_cons_erase hb
    have := (h.trans (hp.map f))
    rw [List.map_cons, List.perm_cons] at this
    obtain ⟨r, rfl, hr⟩ := ih _ this
    exact ⟨b :: r, rfl, (hr.cons b).trans hp.symm⟩

theorem withMode_kind {rand : Nat → Nat} {v : Int} {dist : List F} {l : Leaf F} (h : withMode rand v dist = some l) : ∃ k m, l = .multinomial [v] v dist k m := by
  unfold withMode at h
  simp only at h
  split at h
  · obtain ⟨i, _, rfl⟩ := Option.map_eq_some_iff.1 h
    exact ⟨_, _, rfl⟩
  · cases h
    exact ⟨_, _, rfl⟩

/-- What is shown of every node: the exact network is valid there, and has a variable. -/
def FloatGood (N : Net ι F) (n : ℕ) (cats : Int → Int) (i : ι) : Prop :=
  Exact n cats (N.kind i) ((exactNet N n cats).kind i) ∧ GoodNode (exactNet N n cats) 0 (catDom cats) i

theorem floatGood_below {N : Net ι F} {n : ℕ} {cats : Int → Int} {u : ι} {P : ι → Prop} (hu : P u) (hc : ∀ c ∈ N.ch u, ∀ i, Reach N.ch c i → P i) : ∀ i, Reach N.ch u i → P i := by
  intro i hi
  rcases Relation.ReflTransGen.cases_head hi with rfl | ⟨c, hc1, hc2⟩
  · exact hu
  · exact hc c hc1 i hc2

variable [Fintype ι]

theorem univariate_float {N : Net ι F} {g : Int} (hg : g ≤ 0) {v : Variable} {D : List VarSet} {u : ι} {n : ℕ} {cats : Int → Int} (hcat : v.categories = cats v.varid) (hpos : 0 < cats v.varid)
    (hD : D.length ≤ n) (h : IsUnivariate N g v D u) : (∀ x, InScope (exactNet N n cats) u x ↔ x = v.varid) ∧ ∀ i, Reach N.ch u i → FloatGood N n cats i := by
  unfold IsUnivariate at h
  rw [if_pos hg] at h
  obtain ⟨rand, counts, l, hr, hc, hl, hu⟩ := h
  obtain ⟨hlen, hnn⟩ := countValues_spec hc
  obtain ⟨-, hsum⟩ := countValues_counts hc
  have hne : counts ≠ [] := by rintro rfl; simp at hlen; omega
  obtain ⟨k, m, rfl⟩ := withMode_kind hl
  have hex : Exact n cats (N.kind u) ((exactNet N n cats).kind u) := by
    refine exactNet_kind ⟨.leaf (.multinomial [v.varid] v.varid ((counts.map fun x : Int => ((x : ℝ) + 1) / ((counts.sum : ℝ) + counts.length)).map XR.fin) 0 (.fin 0)), ?_⟩
    rw [hu]
    exact ⟨_, _, k, m, 0, .fin 0, counts, hnn, by rw [hlen, hcat], hpos, by omega, rfl, rfl⟩
  have hex' := hex
  rw [hu] at hex'
  obtain ⟨e, he, hd, hv⟩ := exact_leaf hex'
  refine ⟨fun x => ?_, floatGood_below (n := n) (cats := cats) ⟨hex, ?_⟩ ?_⟩
  · rw [InScope.of_leaf he, hv]; simp only [leafVar]; exact eq_comm
  · unfold GoodNode
    rw [he]
    exact fun _ => hd
  · have : N.ch u = [] := by unfold Net.ch; rw [hu]
    rw [this]
    simp

theorem product_float {N : Net ι F} {n : ℕ} {cats : Int → Int} {u : ι} {ds cs : List ι} (hu : N.kind u = .product ds) (hp : ds.Perm cs) (K : List (List Int))
    (hlen : cs.length = K.length) (hnd : K.flatten.Nodup)
    (hs : ∀ (i : Nat) s c, K[i]? = some s → cs[i]? = some c → (∀ v, InScope (exactNet N n cats) c v ↔ v ∈ s) ∧ ∀ j, Reach N.ch c j → FloatGood N n cats j) :
    (∀ v, InScope (exactNet N n cats) u v ↔ v ∈ K.flatten) ∧ ∀ j, Reach N.ch u j → FloatGood N n cats j := by
  have hex : Exact n cats (N.kind u) ((exactNet N n cats).kind u) := exactNet_kind ⟨.product ds, by rw [hu]; rfl⟩
  have hk : (exactNet N n cats).kind u = .product ds := by
    have := hex
    rw [hu] at this
    cases hq : (exactNet N n cats).kind u <;> rw [hq] at this <;> simp only [Exact] at this
    rw [this]
  have hch : (exactNet N n cats).ch = N.ch := funext (exactNet_ch N n cats)
  obtain ⟨h1, h2⟩ := product_good (g := 0) (dom := catDom cats) hk hp K hlen hnd (fun i s c a b => ⟨(hs i s c a b).1, fun j hj => ((hs i s c a b).2 j (by rw [← hch]; exact hj)).2⟩)
  refine ⟨h1, floatGood_below (n := n) (cats := cats) ⟨hex, h2 u Relation.ReflTransGen.refl⟩ ?_⟩
  have : N.ch u = ds := by unfold Net.ch; rw [hu]
  rw [this]
  intro c hc
  obtain ⟨i, hi, hget⟩ := List.mem_iff_getElem.1 (hp.mem_iff.1 hc)
  exact (hs i (K[i]'(by omega)) c (by simp) (by rw [List.getElem?_eq_getElem hi, hget])).2

theorem learned_float {N : Net ι F} {g k : Int} (hg : g ≤ 0) {eps : F} {mp : Int} {Sc : VarScope} {D : List VarSet} {u : ι} (h : Learned N g k eps mp Sc D u) (n : ℕ) (cats : Int → Int) :
    ScopeOk cats Sc → D.length ≤ n → (∀ v, InScope (exactNet N n cats) u v ↔ (Sc v).isSome) ∧ (∀ i, Reach N.ch u i → FloatGood N n cats i) ∧
      ((∃ v, (Sc v).isSome) → ∀ i, Reach N.ch u i → ∃ v, InScope (exactNet N n cats) i v) := by
  induction h with
  | @leaf Sc D u key v hord hv hun =>
    intro hok hD
    obtain ⟨h1, h2, h3⟩ := hok key v hv
    obtain ⟨hs, hgd⟩ := univariate_float (cats := cats) hg (by rw [h1]; exact h2) (by rw [h1]; exact h3) hD hun
    refine ⟨fun x => ?_, hgd, fun _ i hi => ?_⟩
    · rw [hs, ← hord.2, h1, List.mem_singleton]
    · unfold IsUnivariate at hun
      rw [if_pos hg] at hun
      obtain ⟨_, _, l, _, _, _, hu⟩ := hun
      have hnil : N.ch u = [] := by unfold Net.ch; rw [hu]
      rcases Relation.ReflTransGen.cases_head hi with rfl | ⟨c, hc1, _⟩
      · exact ⟨_, (hs _).2 rfl⟩
      · rw [hnil] at hc1; simp at hc1
  | @product Sc D u keys K scs cs ds hord hn hK hK1 hlen hsub _ hu hp ih =>
    intro hok hD
    obtain ⟨keys', ho', hperm, hne⟩ := indepSets_spec hok hK
    have hall : ∀ (i : Nat) s c, K[i]? = some s → cs[i]? = some c → (∀ v, InScope (exactNet N n cats) c v ↔ v ∈ s) ∧ (∀ j, Reach N.ch c j → FloatGood N n cats j) ∧
        ∀ j, Reach N.ch c j → ∃ v, InScope (exactNet N n cats) j v := by
      intro i s c h1 h2
      obtain ⟨hd1, hd2⟩ := subScope_spec (hsub i s h1)
      have hoki : ScopeOk cats (scs i) := by
        intro x v hx
        rw [hd2] at hx
        split at hx
        · obtain ⟨w, hw, rfl⟩ := Option.map_eq_some_iff.1 hx
          exact ⟨rfl, (hok x w hw).2⟩
        · cases hx
      obtain ⟨g1, g2, g3⟩ := ih i s c h1 h2 hoki (by unfold subData; simpa using hD)
      refine ⟨fun v => ?_, g2, g3 ?_⟩
      · rw [g1, hd2]
        by_cases hv : v ∈ s
        · have := hd1 v hv
          simp [hv, this]
        · simp [hv]
      · have hsne : s ≠ [] := fun e => hne (e ▸ List.mem_of_getElem? h1)
        obtain ⟨v, hv⟩ := List.exists_mem_of_ne_nil _ hsne
        refine ⟨v, ?_⟩
        rw [hd2]
        have := hd1 v hv
        simp [hv, this]
    obtain ⟨t1, t2⟩ := product_float (n := n) (cats := cats) hu hp K hlen (hperm.nodup_iff.2 ho'.1) (fun i s c h1 h2 => ⟨(hall i s c h1 h2).1, (hall i s c h1 h2).2.1⟩)
    have hsc : ∀ v, InScope (exactNet N n cats) u v ↔ (Sc v).isSome := fun v => by rw [t1, hperm.mem_iff, ho'.2]
    refine ⟨hsc, t2, fun ⟨v, hv⟩ => floatGood_below (n := n) (cats := cats) ⟨v, (hsc v).2 hv⟩ ?_⟩
    have : N.ch u = ds := by unfold Net.ch; rw [hu]
    rw [this]
    intro c hc
    obtain ⟨i, hi, hget⟩ := List.mem_iff_getElem.1 (hp.mem_iff.1 hc)
    exact (hall i (K[i]'(by omega)) c (by simp) (by rw [List.getElem?_eq_getElem hi, hget])).2.2
  | @factorized Sc D u keys K hord hn hK hK1 hc hf =>
    intro hok hD
    obtain ⟨ks, cs, ho, hlen, hu, hcs⟩ := hf
    have hflat : (ks.map fun k => [k]).flatten = ks := by rw [← List.flatMap_def]; simp
    have hall : ∀ (i : Nat) x c, ks[i]? = some x → cs[i]? = some c → (∀ v, InScope (exactNet N n cats) c v ↔ v = x) ∧ (∀ j, Reach N.ch c j → FloatGood N n cats j) ∧ N.ch c = [] := by
      intro i x c hx h2
      obtain ⟨v, hv, hun⟩ := hcs i x c hx h2
      obtain ⟨e1, e2, e3⟩ := hok x v hv
      obtain ⟨hs, hgd⟩ := univariate_float (cats := cats) hg (by rw [e1]; exact e2) (by rw [e1]; exact e3) hD hun
      refine ⟨fun y => by rw [hs, e1], hgd, ?_⟩
      unfold IsUnivariate at hun
      rw [if_pos hg] at hun
      obtain ⟨_, _, l, _, _, _, hu⟩ := hun
      unfold Net.ch; rw [hu]
    obtain ⟨t1, t2⟩ := product_float (n := n) (cats := cats) hu (List.Perm.refl cs) (ks.map fun k => [k]) (by simpa using hlen) (by rw [hflat]; exact ho.1) (fun i s c h1 h2 => by
        rw [List.getElem?_map, Option.map_eq_some_iff] at h1
        obtain ⟨x, hx, rfl⟩ := h1
        exact ⟨fun y => by rw [(hall i x c hx h2).1, List.mem_singleton], (hall i x c hx h2).2.1⟩)
    have hsc : ∀ v, InScope (exactNet N n cats) u v ↔ (Sc v).isSome := fun v => by rw [t1, hflat, ho.2]
    refine ⟨hsc, t2, fun ⟨v, hv⟩ => floatGood_below (n := n) (cats := cats) ⟨v, (hsc v).2 hv⟩ ?_⟩
    have : N.ch u = cs := by unfold Net.ch; rw [hu]
    rw [this]
    intro c hc j hj
    obtain ⟨i, hi, hget⟩ := List.mem_iff_getElem.1 hc
    obtain ⟨a1, _, a3⟩ := hall i (ks[i]'(by omega)) c (by simp) (by rw [List.getElem?_eq_getElem hi, hget])
    rcases Relation.ReflTransGen.cases_head hj with rfl | ⟨d, hd1, _⟩
    · exact ⟨_, (a1 _).2 rfl⟩
    · rw [a3] at hd1; simp at hd1
  | @sum Sc D u keys K C orders cs ps hord hn hK hK1 hC hC1 hlen hords _ hp hu ih =>
    intro hok hD
    obtain ⟨hDpos, hsum⟩ := clustered_lengths hC
    have hfst : (ps.map Prod.fst).Perm cs := by
      have := hp.map Prod.fst
      rwa [List.map_fst_zip (by simp [hlen])] at this
    have hchN : N.ch u = ps.map Prod.fst := by unfold Net.ch; rw [hu]
    have hc : ∀ c ∈ ps.map Prod.fst, (∀ v, InScope (exactNet N n cats) c v ↔ (Sc v).isSome) ∧ (∀ j, Reach N.ch c j → FloatGood N n cats j) ∧
        ((∃ v, (Sc v).isSome) → ∀ j, Reach N.ch c j → ∃ v, InScope (exactNet N n cats) j v) := by
      intro c hc
      obtain ⟨i, hi, hget⟩ := List.mem_iff_getElem.1 (hfst.mem_iff.1 hc)
      have := ih i (C[i]'(by omega)) c (by simp) (by rw [List.getElem?_eq_getElem hi, hget])
      rw [reflectScope_eq (hords i)] at this
      refine this hok ?_
      have : (C[i]'(by omega)).length ≤ (C.map List.length).sum := List.single_le_sum (by simp) _ (List.mem_map.2 ⟨_, List.getElem_mem _, rfl⟩)
      omega
    have hCne : C ≠ [] := by
      rintro rfl
      simp at hsum; omega
    have hcsne : 0 < cs.length := by
      rw [hlen]; exact List.length_pos_iff.2 hCne
    have hsnd : (ps.map Prod.snd).Perm ((C.map List.length).map fun a : ℕ => (div (ofInt (a : Int)) (ofInt (D.length : Int)) : F)) := by
      have := hp.map Prod.snd
      rw [List.map_snd_zip (by simp [hlen])] at this
      rwa [List.map_map]
    obtain ⟨r, hr1, hr2⟩ := perm_map_exists _ _ _ hsnd
    have hrl : r.length = (ps.map Prod.fst).length := by
      have := congrArg List.length hr1
      simp only [List.length_map] at this ⊢
      omega
    have hex : Exact n cats (N.kind u) ((exactNet N n cats).kind u) := by
      refine exactNet_kind ⟨.sum (ps.map Prod.fst) ((r.map fun a : ℕ => (a : ℝ) / D.length).map XR.fin), ?_⟩
      rw [hu]
      exact ⟨rfl, r, D.length, hDpos, hD, by rw [hr2.sum_eq, hsum], hrl, hr1, rfl⟩
    have hex' := hex
    rw [hu] at hex'
    obtain ⟨q, hq, hql, hq0, hq1⟩ := exact_sum hex'
    have hsc : ∀ v, InScope (exactNet N n cats) u v ↔ (Sc v).isSome := by
      intro v
      rw [inScope_sum hq]
      constructor
      · rintro ⟨c, hcm, hv⟩; exact ((hc c hcm).1 v).1 hv
      · intro hv
        obtain ⟨c, hcm⟩ := List.exists_mem_of_length_pos hcsne
        have hcm' := hfst.mem_iff.2 hcm
        exact ⟨c, hcm', ((hc c hcm').1 v).2 hv⟩
    refine ⟨hsc, floatGood_below (n := n) (cats := cats) ⟨hex, ?_⟩ ?_, fun ⟨v, hv⟩ => floatGood_below (n := n) (cats := cats) ⟨v, (hsc v).2 hv⟩ ?_⟩
    · unfold GoodNode
      rw [hq]
      exact ⟨fun c h1 d h2 v hv => ((hc d h2).1 v).2 (((hc c h1).1 v).1 hv), q, rfl, hql, hq0, hq1⟩
    · rw [hchN]
      exact fun c hcm => (hc c hcm).2.1
    · rw [hchN]
      exact fun c hcm => (hc c hcm).2.2 ⟨v, hv⟩

end Gospn
