/-
C92: what half of an image is completed, and with what.
-/
import Verif.Props.App
import Verif.Props.Semantics

set_option linter.unusedSectionVars false
set_option linter.unusedSimpArgs false

namespace Gospn
open Spec GoFloat
variable {ι : Type} [DecidableEq ι] [Fintype ι]

/-- The pixel in column `x` and row `y` of an image of `w` columns and `h` rows belongs to the half named by `t`. The middle row or column of an odd number belongs to the lower or right half. -/
def InHalf (t : CmplType) (w h x y : Nat) : Prop :=
  match t with
  | .top => y < h / 2
  | .bottom => h / 2 ≤ y
  | .left => x < w / 2
  | .right => w / 2 ≤ x
  | .other => False

/-- The numbers of the pixels of an image of `w` columns and `h` rows. -/
def IsImgPixel (w h : Nat) (k : Int) : Prop := ∃ x y : Nat, x < w ∧ y < h ∧ k = x + y * w

theorem halfCriteria_spec {t : CmplType} (ht : t ≠ .other) {w h x y : Nat} (hx : x < w) : ∃ b, halfCriteria t w h (x + y * w) = some b ∧ (b = true ↔ InHalf t w h x y) := by
  have hd : ((h : Int).tdiv 2) = ((h / 2 : Nat) : Int) := by rw [Int.tdiv_eq_ediv_of_nonneg (by omega)]; norm_cast
  have hdw : ((w : Int).tdiv 2) = ((w / 2 : Nat) : Int) := by rw [Int.tdiv_eq_ediv_of_nonneg (by omega)]; norm_cast
  have hm : ((x : Int) + y * w).tmod w = (x : Int) := by
    rw [Int.tmod_eq_emod_of_nonneg (by positivity), Int.add_mul_emod_self_right]
    exact Int.emod_eq_of_lt (by omega) (by omega)
  have hrow : ((x : Int) + y * w < w * ((h / 2 : Nat) : Int)) ↔ y < h / 2 := by
    generalize h / 2 = q
    constructor
    · intro hlt
      by_contra hn
      have h1 : q ≤ y := by omega
      have h2 : w * q ≤ y * w := by rw [Nat.mul_comm]; exact Nat.mul_le_mul_right _ h1
      have h3 : ((w * q : Nat) : Int) ≤ ((y * w : Nat) : Int) := by exact_mod_cast h2
      push_cast at h3
      omega
    · intro hlt
      have h2 : (y + 1) * w ≤ q * w := Nat.mul_le_mul_right _ hlt
      have h3 : x + y * w < w * q := by rw [Nat.mul_comm w q]; rw [Nat.add_mul] at h2; omega
      exact_mod_cast h3
  cases t with
  | top => exact ⟨_, rfl, by rw [decide_eq_true_iff, hd, hrow]; rfl⟩
  | bottom => exact ⟨_, rfl, by rw [decide_eq_true_iff, hd, ge_iff_le, ← not_lt, hrow]; simp [InHalf]⟩
  | left => exact ⟨decide _, by rw [halfCriteria, if_neg (by omega)], by rw [decide_eq_true_iff, hm, hdw]; simp only [InHalf]; omega⟩
  | right => exact ⟨decide _, by rw [halfCriteria, if_neg (by omega)], by rw [decide_eq_true_iff, hm, hdw]; simp only [InHalf]; omega⟩
  | other => exact absurd rfl ht

/-- What is known: the pixels of the other half, with their values. -/
def KnownHalf (set : VarSet) (t : CmplType) (w h : Nat) (half : VarSet) : Prop :=
  (∀ k, ¬ IsImgPixel w h k → half k = none) ∧
    ∀ x y : Nat, x < w → y < h → (InHalf t w h x y → half (x + y * w) = none) ∧ (¬ InHalf t w h x y → half (x + y * w) = set (x + y * w))

theorem pixel_unique {w x y x' y' : Nat} (hx : x < w) (hx' : x' < w) (h : (x : Int) + y * w = x' + y' * w) : x = x' ∧ y = y' := by
  have h' : x + y * w = x' + y' * w := by exact_mod_cast h
  have h1 : x = x' := by
    have := congrArg (· % w) h'
    simpa [Nat.add_mul_mod_self_right, Nat.mod_eq_of_lt hx, Nat.mod_eq_of_lt hx'] using this
  subst h1
  refine ⟨rfl, ?_⟩
  have : y * w = y' * w := by omega
  exact Nat.eq_of_mul_eq_mul_right (by omega) this

theorem knownHalf_spec {set : VarSet} {keys : List Int} {t : CmplType} {w h : Nat} (ht : t ≠ .other) (hk : ∀ k, k ∈ keys ↔ ∃ v, set k = some v) (hp : ∀ k ∈ keys, IsImgPixel w h k) :
    ∃ half, knownHalf set keys t w h = some half ∧ KnownHalf set t w h half := by
  have hcr : ∀ k, IsImgPixel w h k → ∃ b, halfCriteria t w h k = some b := by
    rintro k ⟨x, y, hx, _, rfl⟩
    obtain ⟨b, hb, _⟩ := halfCriteria_spec (h := h) (y := y) ht hx
    exact ⟨b, hb⟩
  have key : ∀ (l : List Int) (m : VarSet), (∀ k ∈ l, IsImgPixel w h k) → ∃ half,
      l.foldlM (fun (half : VarSet) k => (halfCriteria t w h k).map fun c => if c then half else half.set k (set.get k)) m = some half ∧
      ∀ k, half k = if k ∈ l ∧ halfCriteria t w h k = some false then some (set.get k) else m k := by
    intro l
    induction l with
    | nil => intro m _; exact ⟨m, rfl, by simp⟩
    | cons a l ih =>
      intro m hl
      obtain ⟨b, hb⟩ := hcr a (hl a (by simp))
      obtain ⟨half, h1, h2⟩ := ih (if b then m else m.set a (set.get a)) fun k hk => hl k (by simp [hk])
      refine ⟨half, by rw [List.foldlM_cons, hb]; exact h1, ?_⟩
      intro k
      rw [h2]
      by_cases e : k ∈ l ∧ halfCriteria t w h k = some false
      · rw [if_pos e, if_pos ⟨by simp [e.1], e.2⟩]
      · rw [if_neg e]
        by_cases hka : k = a
        · subst hka
          rw [hb]
          cases b <;> simp [VarSet.set]
        · have : ¬ (k ∈ a :: l ∧ halfCriteria t w h k = some false) := by
            rintro ⟨g1, g2⟩
            rcases List.mem_cons.1 g1 with g1 | g1
            · exact hka g1
            · exact e ⟨g1, g2⟩
          rw [if_neg this]
          cases b <;> simp [VarSet.set, hka]
  obtain ⟨half, h1, h2⟩ := key keys VarSet.empty hp
  refine ⟨half, h1, ?_, ?_⟩
  · intro k hk'
    rw [h2, if_neg fun g => hk' (hp k g.1)]
    rfl
  · intro x y hx hy
    obtain ⟨b, hb, hb'⟩ := halfCriteria_spec (h := h) (y := y) ht hx
    rw [h2, hb]
    constructor
    · intro hi
      rw [hb'.2 hi]; simp [VarSet.empty]
    · intro hi
      have : b = false := by
        cases b
        · rfl
        · exact absurd (hb'.1 rfl) hi
      subst this
      by_cases hm : ((x : Int) + y * w) ∈ keys
      · obtain ⟨v, hv⟩ := (hk _).1 hm
        simp [hm, VarSet.get, hv]
      · rw [if_neg (by simp [hm])]
        have : ¬ ∃ v, set ((x : Int) + y * w) = some v := fun h => hm ((hk _).2 h)
        cases hs : set ((x : Int) + y * w) with
        | none => rfl
        | some v => exact absurd ⟨v, hs⟩ this

/-- **C92.** `halfImg` keeps, of an image of `w` by `h` pixels, exactly the pixels outside the half to be completed, and completes the rest of the network's variables with a MAP state given those
pixels: the completion assigns exactly the variables of the network that are not kept. This holds for every order of the map and every way ties are broken. Missing: networks and evidence outside the
conditions of C08 (known half of positive MAP probability, indicators of value 0, children in order). -/
theorem C92_halfImg_partial (N : Net ι XR) (S : ι) (dom : Int → Set Int) (set : VarSet) (keys : List Int) (t : CmplType) (w h : Nat) (ht : t ≠ .other) (hk : ∀ k, k ∈ keys ↔ ∃ v, set k = some v)
    (hp : ∀ k ∈ keys, IsImgPixel w h k) (hso : SiblingOrdered N.ch S) (hS : N.ch S ≠ []) (pick : ι → Nat → Nat)
    (hm : ∀ half, KnownHalf set t w h half → MapNet N S dom half ∧ ∃ a : ℝ, N.max half S = some (.fin a)) :
    ∃ half cmpl M, halfImg N S set keys t w h pick = some (cmpl, half) ∧ KnownHalf set t w h half ∧ IsMapState N S dom half M ∧
      (∀ v, cmpl v = if (half v).isSome then none else M v) ∧ (∀ v, (∃ x, cmpl v = some x) ↔ InScope N S v ∧ half v = none) := by
  obtain ⟨half, h1, h2⟩ := knownHalf_spec ht hk hp
  obtain ⟨h3, a, ha⟩ := hm half h2
  obtain ⟨M, st', g1, g2⟩ := C08_storeMAP_partial N S dom half h3 a ha hso hS [] Client.new [] rfl (-1) (Or.inl (by decide)) pick
  refine ⟨half, fun k => if (half k).isSome then none else M k, M, ?_, h2, g2, fun v => rfl, ?_⟩
  · unfold halfImg
    rw [h1, Option.bind_some]
    have g1' : N.storeMAP S half (-1) (Storer.new : Storer ι XR) pick = some (some (S, usedTicket Client.new.s (-1), M), st') := g1
    rw [g1']
    rfl
  · intro v
    beta_reduce
    cases hv : half v with
    | none => simpa [hv] using g2.1 v
    | some x => simp [hv]

/-- Any other completion type panics, and so does completing the left or right half for a width of zero, as soon as the image has a pixel. -/
theorem C92_panics {F : Type} [GoFloat F] (N : Net ι F) (S : ι) (set : VarSet) (k : Int) (keys : List Int) (t : CmplType) (w h : Int) (pick : ι → Nat → Nat)
    (ht : t = .other ∨ ((t = .left ∨ t = .right) ∧ w = 0)) : halfImg N S set (k :: keys) t w h pick = none := by
  have : halfCriteria t w h k = none := by
    rcases ht with rfl | ⟨rfl | rfl, rfl⟩ <;> simp [halfCriteria]
  unfold halfImg knownHalf
  rw [List.foldlM_cons, this]
  rfl

theorem mixNet_known_domain : InDomain mixNet 0 (fun _ => {0, 1}) (VarSet.single 1 1) := by
  intro w _ y hy
  simp only [VarSet.single] at hy
  split at hy
  · cases hy; simp
  · cases hy

/-- With the second variable known the MAP probability of `mixNet` is positive. -/
theorem mixNet_positive_known : ∃ a, mixNet.max (VarSet.single 1 1) 0 = some (.fin a) := by
  have hm := mixNet_map (VarSet.single 1 1) mixNet_known_domain
  have h1 := Net.max_product hm.acyclic hm.weights hm.leavesMax (n := 1) (Relation.ReflTransGen.single (by decide : (1 : Fin 7) ∈ mixNet.ch 0)) rfl
  have h3 : mixNet.pmax (VarSet.single 1 1) 3 = 1 / 2 := by
    have : mixNet.max (VarSet.single 1 1) 3 = some (.fin (Real.log (1 / 2))) := by
      rw [Net.max_unfold mixNet_acyclic]; simp [Net.maxStep, mixNet, Leaf.max, XR.log, VarSet.single]
    rw [Net.pmax_some this, unlog_fin, Real.exp_log (by norm_num)]
  have h4 : mixNet.pmax (VarSet.single 1 1) 4 = 2 / 3 := by
    have : mixNet.max (VarSet.single 1 1) 4 = some (.fin (Real.log (2 / 3))) := by
      rw [Net.max_unfold mixNet_acyclic]; simp [Net.maxStep, mixNet, Leaf.max, XR.log, VarSet.single, goIdx]
    rw [Net.pmax_some this, unlog_fin, Real.exp_log (by norm_num)]
  simp only [List.map_cons, List.map_nil, List.prod_cons, List.prod_nil, h3, h4] at h1
  obtain ⟨g, us, k1, k2, k3, k4, k5, k6, k7, k8⟩ := Net.max_sum hm.acyclic hm.weights hm.leavesMax (n := 0) Relation.ReflTransGen.refl (cs := [1, 2])
    (r := [1 / 4, 3 / 4]) rfl
  rw [k6]
  have hsp := maxCompute_spec us k4
  have hx : ∃ u ∈ us, unlog u ≠ 0 := by
    cases us with
    | nil => simp at k3
    | cons u us =>
      refine ⟨u, by simp, ?_⟩
      simp only [List.map_cons, List.zipWith_cons_cons, List.cons.injEq] at k5
      rw [k5.1, h1]; norm_num
  obtain ⟨u, hu, hne⟩ := hx
  obtain ⟨a, ha⟩ := isLogProb_fin_of hsp.1 (fun h0 => hne (le_antisymm (by rw [← h0]; exact hsp.2.2 u hu) (unlog_nonneg u)))
  exact ⟨a, by rw [ha]⟩

/-- The top half of an image of one column and two rows, and the network `mixNet` over its two pixels. -/
example : (∀ k, k ∈ ([0, 1] : List Int) ↔ ∃ v, ((VarSet.empty.set 0 1).set 1 1) k = some v) ∧ (∀ k ∈ ([0, 1] : List Int), IsImgPixel 1 2 k) ∧ SiblingOrdered mixNet.ch 0 ∧ mixNet.ch 0 ≠ [] ∧
    (∀ half, KnownHalf ((VarSet.empty.set 0 1).set 1 1) .top 1 2 half → MapNet mixNet 0 (fun _ => {0, 1}) half ∧ ∃ a : ℝ, mixNet.max half 0 = some (.fin a)) := by
  refine ⟨?_, ?_, mixNet_siblings, by decide, ?_⟩
  · intro k
    by_cases h0 : k = 0 <;> by_cases h1 : k = 1 <;> simp [VarSet.set, VarSet.empty, h0, h1]
  · intro k hk
    simp only [List.mem_cons, List.not_mem_nil, or_false] at hk
    rcases hk with rfl | rfl
    · exact ⟨0, 0, by omega, by omega, by norm_num⟩
    · exact ⟨0, 1, by omega, by omega, by norm_num⟩
  · rintro half ⟨h1, h2⟩
    have : half = VarSet.single 1 1 := by
      funext k
      by_cases hk0 : k = 0
      · subst hk0
        have := (h2 0 0 (by omega) (by omega)).1 (by simp [InHalf])
        simpa [VarSet.single] using this
      · by_cases hk1 : k = 1
        · subst hk1
          have := (h2 0 1 (by omega) (by omega)).2 (by simp [InHalf])
          simpa [VarSet.single, VarSet.set] using this
        · rw [h1 k]
          · simp [VarSet.single, hk1]
          · rintro ⟨x, y, hx, hy, rfl⟩
            have : y = 0 ∨ y = 1 := by omega
            rcases this with rfl | rfl <;> omega
    rw [this]
    exact ⟨mixNet_map _ mixNet_known_domain, mixNet_positive_known⟩

end Gospn
