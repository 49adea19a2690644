/-
C125: completions of images do not depend on what they are to complete.
C126: the red line in the pictures of completions.
-/
import Verif.Model.ImgRun
import Verif.Props.HalfImg
import Verif.Props.Images

set_option linter.unusedSectionVars false

namespace Gospn
open GoFloat Spec
variable {ι F : Type} [DecidableEq ι] [Fintype ι] [GoFloat F]

/-! ### C125 -/

/-- The pixels of an image of `w` by `h` pixels, in some order. -/
def Spec.KeysOf (w h : Nat) (I : VarSet) (keys : List Int) : Prop := (∀ k, k ∈ keys ↔ ∃ v, I k = some v) ∧ ∀ k ∈ keys, IsImgPixel w h k

/-- The two images have the same pixels outside the half named by `t`. -/
def Spec.SameOutside (t : CmplType) (w h : Nat) (I I' : VarSet) : Prop := ∀ x y : Nat, x < w → y < h → ¬ InHalf t w h x y → I' (x + y * w) = I (x + y * w)

theorem knownHalf_unique {t : CmplType} {w h : Nat} {I I' half half' : VarSet} (hs : SameOutside t w h I I') (h1 : KnownHalf I t w h half) (h2 : KnownHalf I' t w h half') : half' = half := by
  funext k
  by_cases hk : IsImgPixel w h k
  · obtain ⟨x, y, hx, hy, rfl⟩ := hk
    by_cases hi : InHalf t w h x y
    · rw [(h1.2 x y hx hy).1 hi, (h2.2 x y hx hy).1 hi]
    · rw [(h1.2 x y hx hy).2 hi, (h2.2 x y hx hy).2 hi, hs x y hx hy hi]
  · rw [h1.1 k hk, h2.1 k hk]

theorem imgPicture_blind (N : Net ι F) (S : ι) {I I' : VarSet} {keys keys' : List Int} {t : CmplType} (ht : t ≠ .other) (t' : CmplType) {w h : Nat} (hk : KeysOf w h I keys) (hk' : KeysOf w h I' keys')
    (hs : SameOutside t w h I I') (max : Int) (pick : ι → Nat → Nat) : imgPicture N S I' keys' t t' w h max pick = imgPicture N S I keys t t' w h max pick := by
  obtain ⟨half, h1, h2⟩ := knownHalf_spec ht hk.1 hk.2
  obtain ⟨half', h1', h2'⟩ := knownHalf_spec ht hk'.1 hk'.2
  rw [knownHalf_unique hs h2 h2'] at h1'
  unfold imgPicture halfImg
  rw [h1, h1']

theorem filter_zipIdx_congr {α : Type} (p : Nat → Bool) : ∀ (l l' : List α) (k : Nat), l'.length = l.length → (∀ j, p (k + j) = true → l'[j]? = l[j]?) →
    ((l'.zipIdx k).filter fun x => p x.2).map Prod.fst = ((l.zipIdx k).filter fun x => p x.2).map Prod.fst := by
  intro l
  induction l with
  | nil => intro l' k hl _; rw [List.length_eq_zero_iff.1 hl]
  | cons a l ih =>
    intro l' k hl h
    cases l' with
    | nil => simp at hl
    | cons a' l' =>
      have ht := ih l' (k + 1) (by simpa using hl) fun j hj => by
        have := h (j + 1) (by rw [show k + (j + 1) = k + 1 + j by omega]; exact hj)
        simpa using this
      rw [List.zipIdx_cons, List.zipIdx_cons, List.filter_cons, List.filter_cons]
      dsimp only
      by_cases hp : p k = true
      · have := h 0 (by simpa using hp)
        simp only [List.getElem?_cons_zero, Option.some.injEq] at this
        rw [if_pos hp, if_pos hp, List.map_cons, List.map_cons, ht, this]
      · rw [if_neg hp, if_neg hp, ht]

/-- **C125.** The picture that `ImgCompletion` draws of image `id` with the half named by `t` completed depends on the images of other classes and on the other half of image `id` only: changing
the half that is to be completed, or any image of the same class, does not change it. -/
theorem C125_completion (lf : List (Int × Int) → List VarSet → Option (Net ι F × ι)) (sc : List (Int × Int)) (data data' : List VarSet) (lbls : List Int) (id : Nat) (I I' : VarSet)
    (hI : data[id]? = some I) (hI' : data'[id]? = some I') (hlen : data'.length = data.length) (hother : ∀ j, lbls.getD j 0 ≠ lbls.getD id 0 → data'[j]? = data[j]?)
    (keys keys' : List Int) (t : CmplType) (ht : t ≠ .other) (w h : Nat) (hk : KeysOf w h I keys) (hk' : KeysOf w h I' keys') (hs : SameOutside t w h I I') (max : Int) (pick : ι → Nat → Nat) :
    complPicture lf sc data' lbls id keys' t w h max pick = complPicture lf sc data lbls id keys t w h max pick := by
  have htr : complTrain data' lbls id = complTrain data lbls id :=
    filter_zipIdx_congr (fun j => decide (j ≠ id) && decide (lbls.getD j 0 ≠ lbls.getD id 0)) data data' 0 hlen fun j hj => hother j (by
      simp only [Bool.and_eq_true, decide_eq_true_eq, Nat.zero_add] at hj
      exact hj.2)
  unfold complPicture
  rw [hI, hI', Option.bind_some, Option.bind_some, htr]
  cases lf sc (complTrain data lbls id) with
  | none => rfl
  | some S => exact imgPicture_blind S.1 S.2 ht t hk hk' hs max pick

/-- **C125.** The picture that `ImgTest` and `ImgTestParallel` draw of image `id` does not depend on the half that is to be completed. -/
theorem C125_test (lf : List (Int × Int) → List VarSet → Nat → Option (Net ι F × ι)) (sc : List (Int × Int)) (data data' : List VarSet) (id : Nat) (I I' : VarSet)
    (hI : data[id]? = some I) (hI' : data'[id]? = some I') (hlen : data'.length = data.length) (hother : ∀ j, j ≠ id → data'[j]? = data[j]?)
    (keys keys' : List Int) (t : CmplType) (ht : t ≠ .other) (w h : Nat) (hk : KeysOf w h I keys) (hk' : KeysOf w h I' keys') (hs : SameOutside t w h I I') (max : Int) (pick : ι → Nat → Nat) :
    testPicture lf sc data' id keys' t w h max pick = testPicture lf sc data id keys t w h max pick ∧
      testParPicture lf sc data' id keys' t w h max pick = testParPicture lf sc data id keys t w h max pick := by
  have htr : testTrain data' id = testTrain data id :=
    filter_zipIdx_congr (fun j => decide (j ≠ id)) data data' 0 hlen fun j hj => hother j (by simpa using hj)
  unfold testPicture testParPicture
  rw [hI, hI', Option.bind_some, Option.bind_some, htr]
  cases lf sc (testTrain data id) id with
  | none => exact ⟨rfl, rfl⟩
  | some S => exact ⟨imgPicture_blind S.1 S.2 ht .left hk hk' hs max pick, imgPicture_blind S.1 S.2 ht t hk hk' hs max pick⟩

/-- What each job learns from: the other images, in `ImgCompletion` only those of other classes. -/
theorem C125_training (data : List VarSet) (lbls : List Int) (id : Nat) (I : VarSet) :
    (I ∈ complTrain data lbls id ↔ ∃ j : Nat, data[j]? = some I ∧ lbls.getD j 0 ≠ lbls.getD id 0) ∧ (I ∈ testTrain data id ↔ ∃ j : Nat, data[j]? = some I ∧ j ≠ id) := by
  constructor
  · unfold complTrain
    simp only [List.mem_map, List.mem_filter, Prod.exists, exists_and_right, exists_eq_right, List.mem_zipIdx_iff_getElem?, Bool.and_eq_true, decide_eq_true_eq]
    constructor
    · rintro ⟨j, h1, -, h2⟩; exact ⟨j, h1, h2⟩
    · rintro ⟨j, h1, h2⟩; exact ⟨j, h1, fun h => h2 (by rw [h]), h2⟩
  · unfold testTrain
    simp only [List.mem_map, List.mem_filter, Prod.exists, exists_and_right, exists_eq_right, List.mem_zipIdx_iff_getElem?, decide_eq_true_eq]

/-- An image of two by two pixels, the upper of which are `v`. -/
def image22 (v : Int) : VarSet := fun k => if k = 0 ∨ k = 1 then some v else if k = 2 ∨ k = 3 then some 1 else none

theorem image22_keys (v : Int) (keys : List Int) (h : keys = [0, 1, 2, 3] ∨ keys = [3, 1, 0, 2]) : KeysOf 2 2 (image22 v) keys := by
  constructor
  · intro k
    unfold image22
    rcases h with rfl | rfl <;> by_cases h1 : k = 0 ∨ k = 1 <;> by_cases h2 : k = 2 ∨ k = 3 <;> simp [h1, h2] <;> omega
  · intro k hk
    have : k = 0 ∨ k = 1 ∨ k = 2 ∨ k = 3 := by rcases h with rfl | rfl <;> simp at hk <;> omega
    rcases this with rfl | rfl | rfl | rfl
    · exact ⟨0, 0, by decide, by decide, rfl⟩
    · exact ⟨1, 0, by decide, by decide, rfl⟩
    · exact ⟨0, 1, by decide, by decide, rfl⟩
    · exact ⟨1, 1, by decide, by decide, rfl⟩

/-- The hypotheses of `C125_completion` and `C125_test` can be met by images that differ. -/
example : [image22 0, image22 1][0]? = some (image22 0) ∧ [image22 5, image22 1][0]? = some (image22 5) ∧ (∀ j, [3, 4].getD j 0 ≠ [3, 4].getD 0 0 → [image22 5, image22 1][j]? = [image22 0, image22 1][j]?) ∧
    (∀ j, j ≠ 0 → [image22 5, image22 1][j]? = [image22 0, image22 1][j]?) ∧ KeysOf 2 2 (image22 0) [0, 1, 2, 3] ∧ KeysOf 2 2 (image22 5) [3, 1, 0, 2] ∧ SameOutside .top 2 2 (image22 0) (image22 5) ∧ image22 0 ≠ image22 5 := by
  refine ⟨rfl, rfl, ?_, ?_, image22_keys _ _ (.inl rfl), image22_keys _ _ (.inr rfl), ?_, fun h => ?_⟩
  · intro j hj
    cases j with
    | zero => exact absurd rfl hj
    | succ j => rfl
  · intro j hj
    cases j with
    | zero => exact absurd rfl hj
    | succ j => rfl
  · intro x y hx hy hn
    simp only [InHalf] at hn
    have h1 : y = 1 := by omega
    have h2 : x = 0 ∨ x = 1 := by omega
    subst h1
    rcases h2 with rfl | rfl <;> rfl
  · have := congrFun h 0
    simp [image22] at this

/-! ### C126 -/

/-- A shade of grey, as the pixels that are known are drawn. -/
def Spec.Grey (c : Int × Int × Int) : Prop := ∃ v, c = (v, v, v)

/-- A shade of green, as the pixels that are completed are drawn. -/
def Spec.Green (c : Int × Int × Int) : Prop := ∃ v, c = (0, v, 0)

/-- The picture consists of a half that is completed and one that is known, with a red row or column between them; `t` says on which side the completed half is. -/
def Spec.Divided (t : CmplType) (P : Ppm) : Prop :=
  ∃ line : Nat, ∀ r c : Nat, (r : Int) < P.height → (c : Int) < P.width → ∃ col, P.pixels[r * P.width.toNat + c]? = some col ∧
    match t with
    | .top => (r < line → Green col) ∧ (r = line → col = (255, 0, 0)) ∧ (line < r → Grey col)
    | .bottom => (r < line → Grey col) ∧ (r = line → col = (255, 0, 0)) ∧ (line < r → Green col)
    | .left => (c < line → Green col) ∧ (c = line → col = (255, 0, 0)) ∧ (line < c → Grey col)
    | .right => (c < line → Grey col) ∧ (c = line → col = (255, 0, 0)) ∧ (line < c → Green col)
    | .other => False

/-- The number of rows or columns that the line has to divide. -/
def Spec.divides (t : CmplType) (w h : Nat) : Nat := if t = .top ∨ t = .bottom then h else w

/-- The colour of a pixel. -/
def drawn1 (half cmpl : VarSet) (j : Int) : Int × Int × Int := match half j with
  | some v => (v, v, v)
  | none => (0, (cmpl j).getD 0, 0)

theorem drawn1_known {I half : VarSet} (cmpl : VarSet) {t : CmplType} {w h : Nat} (hh : KnownHalf I t w h half) (hI : ∀ x y : Nat, x < w → y < h → ∃ v, I (x + y * w) = some v) {x y : Nat} (hx : x < w) (hy : y < h) :
    (InHalf t w h x y → Green (drawn1 half cmpl ((y * w + x : Nat) : Int))) ∧ (¬ InHalf t w h x y → Grey (drawn1 half cmpl ((y * w + x : Nat) : Int))) := by
  have e : (((y * w + x : Nat) : Int)) = (x : Int) + y * w := by push_cast; ring
  rw [e]
  constructor
  · intro hi
    refine ⟨_, by unfold drawn1; rw [(hh.2 x y hx hy).1 hi]⟩
  · intro hi
    obtain ⟨v, hv⟩ := hI x y hx hy
    exact ⟨v, by unfold drawn1; rw [(hh.2 x y hx hy).2 hi, hv]⟩

/-- **C126, in part.** If the number of rows (for the upper and lower half) or columns (for the left and right half) is even, the red line of the picture that `ImgCompletion` and `ImgTestParallel`
draw divides the half that was completed from the half that was known. -/
theorem C126_line_partial (I half cmpl : VarSet) (t : CmplType) (ht : t ≠ .other) (w h : Nat) (max : Int) (hh : KnownHalf I t w h half) (hI : ∀ x y : Nat, x < w → y < h → ∃ v, I (x + y * w) = some v)
    (hev : 2 ∣ divides t w h) : Divided t (imgCmplToPGM half cmpl t w h max) := by
  obtain ⟨W, H, hW, hH, eW, eH, -, hp⟩ := C61_pgm_partial half cmpl t w h max
  obtain ⟨k, hk⟩ := hev
  refine ⟨k, fun r c hr hc => ?_⟩
  rw [hH] at hr
  rw [hW] at hc ⊢
  have hr' : r < H := by exact_mod_cast hr
  have hc' : c < W := by exact_mod_cast hc
  obtain ⟨col, h1, h2⟩ := hp r c hr' hc'
  refine ⟨col, by simpa using h1, ?_⟩
  change Shows (drawn1 half cmpl) t w h r c col at h2
  have key := fun (x y : Nat) => drawn1_known (x := x) (y := y) cmpl hh hI
  unfold Shows at h2
  unfold divides at hk
  cases t with
  | other => exact absurd rfl ht
  | top =>
    simp only [true_or, if_true] at h2 hk eW eH
    have e : (h + 1) / 2 = k := by omega
    rw [e] at h2
    refine ⟨fun hlt => ?_, fun he => by rw [h2, if_pos he]; rfl, fun hgt => ?_⟩
    · rw [h2, if_neg (by omega), if_pos hlt]
      exact (key c r (by omega) (by omega)).1 (by simp only [InHalf]; omega)
    · rw [h2, if_neg (by omega), if_neg (by omega)]
      exact (key c (r - 1) (by omega) (by omega)).2 (by simp only [InHalf]; omega)
  | bottom =>
    simp only [or_true, if_true] at h2 hk eW eH
    have e : (h + 1) / 2 = k := by omega
    rw [e] at h2
    refine ⟨fun hlt => ?_, fun he => by rw [h2, if_pos he]; rfl, fun hgt => ?_⟩
    · rw [h2, if_neg (by omega), if_pos hlt]
      exact (key c r (by omega) (by omega)).2 (by simp only [InHalf]; omega)
    · rw [h2, if_neg (by omega), if_neg (by omega)]
      exact (key c (r - 1) (by omega) (by omega)).1 (by simp only [InHalf]; omega)
  | left =>
    simp only [reduceCtorEq, or_self, if_false] at h2 hk eW eH
    have e : (w + 1) / 2 = k := by omega
    rw [e] at h2
    refine ⟨fun hlt => ?_, fun he => by rw [h2, if_pos he]; rfl, fun hgt => ?_⟩
    · rw [h2, if_neg (by omega), if_pos hlt]
      exact (key c r (by omega) (by omega)).1 (by simp only [InHalf]; omega)
    · rw [h2, if_neg (by omega), if_neg (by omega)]
      exact (key (c - 1) r (by omega) (by omega)).2 (by simp only [InHalf]; omega)
  | right =>
    simp only [reduceCtorEq, or_self, if_false] at h2 hk eW eH
    have e : (w + 1) / 2 = k := by omega
    rw [e] at h2
    refine ⟨fun hlt => ?_, fun he => by rw [h2, if_pos he]; rfl, fun hgt => ?_⟩
    · rw [h2, if_neg (by omega), if_pos hlt]
      exact (key c r (by omega) (by omega)).2 (by simp only [InHalf]; omega)
    · rw [h2, if_neg (by omega), if_neg (by omega)]
      exact (key (c - 1) r (by omega) (by omega)).1 (by simp only [InHalf]; omega)

theorem red_shades : ¬ Grey (255, 0, 0) ∧ ¬ Green (255, 0, 0) := by
  constructor
  · rintro ⟨v, h⟩; simp only [Prod.mk.injEq] at h; omega
  · rintro ⟨v, h⟩; simp only [Prod.mk.injEq] at h; omega

theorem drawn1_shade (half cmpl : VarSet) (j : Int) : drawn1 half cmpl j ≠ (255, 0, 0) := by
  unfold drawn1
  split
  · intro h; simp only [Prod.mk.injEq] at h; omega
  · intro h; simp only [Prod.mk.injEq] at h; omega

/-- **C126 fails.** For an odd number of rows (or columns) the middle row is on the wrong side of the line: it is known when the upper half is completed, and is drawn above the line. If a single
pixel of it is not black, the line does not divide the picture. -/
theorem C126_odd_refuted (I half cmpl : VarSet) (t : CmplType) (ht : t ≠ .other) (w h : Nat) (max : Int) (hh : KnownHalf I t w h half) (hI : ∀ x y : Nat, x < w → y < h → ∃ v, I (x + y * w) = some v)
    (k : Nat) (hodd : divides t w h = 2 * k + 1) (x y : Nat) (hx : x < w) (hy : y < h) (hmid : if t = .top ∨ t = .bottom then y = k else x = k)
    (hb : half (x + y * w) ≠ some 0 ∧ (half (x + y * w) = none → (cmpl (x + y * w)).getD 0 ≠ 0)) : ¬ Divided t (imgCmplToPGM half cmpl t w h max) := by
  obtain ⟨W, H, hW, hH, eW, eH, -, hp⟩ := C61_pgm_partial half cmpl t w h max
  rintro ⟨line, hl⟩
  rw [hW, hH] at hl
  have key := drawn1_known cmpl hh hI hx hy
  have e : (((y * w + x : Nat) : Int)) = (x : Int) + y * w := by push_cast; ring
  have hnb : drawn1 half cmpl ((y * w + x : Nat) : Int) ≠ (0, 0, 0) := by
    rw [e]
    unfold drawn1
    cases hv : half ((x : Int) + y * w) with
    | some v =>
      intro hc
      simp only [Prod.mk.injEq] at hc
      exact hb.1 (by rw [hv, hc.1])
    | none =>
      intro hc
      simp only [Prod.mk.injEq] at hc
      exact hb.2 hv hc.2.1
  have hboth : ∀ c, Grey c → Green c → c = (0, 0, 0) := by
    rintro c ⟨v, rfl⟩ ⟨u, hu⟩
    simp only [Prod.mk.injEq] at hu ⊢
    omega
  have get : ∀ r c : Nat, r < H → c < W → ∃ col, (imgCmplToPGM half cmpl t w h max).pixels[r * W + c]? = some col ∧ Shows (drawn1 half cmpl) t w h r c col := hp
  unfold divides at hodd
  cases t with
  | other => exact absurd rfl ht
  | top =>
    simp only [true_or, if_true] at hodd eW eH hmid
    subst hmid
    obtain ⟨c1, g1, g2⟩ := get (y + 1) x (by omega) (by omega)
    obtain ⟨c1', g1', g3, -, g4⟩ := hl (y + 1) x (by omega) (by omega)
    rw [Int.toNat_natCast, g1] at g1'
    cases g1'
    simp only [Shows, true_or, if_true] at g2
    rw [if_pos (by omega)] at g2
    subst g2
    have hline : line = y + 1 := by
      by_contra hne
      rcases lt_or_gt_of_ne hne with hlt | hgt
      · exact red_shades.1 (g4 hlt)
      · exact red_shades.2 (g3 hgt)
    obtain ⟨c2, k1, k2⟩ := get y x (by omega) (by omega)
    obtain ⟨c2', k1', k3, -⟩ := hl y x (by omega) (by omega)
    rw [Int.toNat_natCast, k1] at k1'
    cases k1'
    simp only [Shows, true_or, if_true] at k2
    rw [if_neg (by omega), if_pos (by omega)] at k2
    subst k2
    exact hnb (hboth _ (key.2 (by simp only [InHalf]; omega)) (k3 (by omega)))
  | bottom =>
    simp only [or_true, if_true] at hodd eW eH hmid
    subst hmid
    obtain ⟨c1, g1, g2⟩ := get (y + 1) x (by omega) (by omega)
    obtain ⟨c1', g1', g3, -, g4⟩ := hl (y + 1) x (by omega) (by omega)
    rw [Int.toNat_natCast, g1] at g1'
    cases g1'
    simp only [Shows, or_true, if_true] at g2
    rw [if_pos (by omega)] at g2
    subst g2
    have hline : line = y + 1 := by
      by_contra hne
      rcases lt_or_gt_of_ne hne with hlt | hgt
      · exact red_shades.2 (g4 hlt)
      · exact red_shades.1 (g3 hgt)
    obtain ⟨c2, k1, k2⟩ := get y x (by omega) (by omega)
    obtain ⟨c2', k1', k3, -⟩ := hl y x (by omega) (by omega)
    rw [Int.toNat_natCast, k1] at k1'
    cases k1'
    simp only [Shows, or_true, if_true] at k2
    rw [if_neg (by omega), if_pos (by omega)] at k2
    subst k2
    exact hnb (hboth _ (k3 (by omega)) (key.1 (by simp only [InHalf]; omega)))
  | left =>
    simp only [reduceCtorEq, or_self, if_false] at hodd eW eH hmid
    subst hmid
    obtain ⟨c1, g1, g2⟩ := get y (x + 1) (by omega) (by omega)
    obtain ⟨c1', g1', g3, -, g4⟩ := hl y (x + 1) (by omega) (by omega)
    rw [Int.toNat_natCast, g1] at g1'
    cases g1'
    simp only [Shows, reduceCtorEq, or_self, if_false] at g2
    rw [if_pos (by omega)] at g2
    subst g2
    have hline : line = x + 1 := by
      by_contra hne
      rcases lt_or_gt_of_ne hne with hlt | hgt
      · exact red_shades.1 (g4 hlt)
      · exact red_shades.2 (g3 hgt)
    obtain ⟨c2, k1, k2⟩ := get y x (by omega) (by omega)
    obtain ⟨c2', k1', k3, -⟩ := hl y x (by omega) (by omega)
    rw [Int.toNat_natCast, k1] at k1'
    cases k1'
    simp only [Shows, reduceCtorEq, or_self, if_false] at k2
    rw [if_neg (by omega), if_pos (by omega)] at k2
    subst k2
    exact hnb (hboth _ (key.2 (by simp only [InHalf]; omega)) (k3 (by omega)))
  | right =>
    simp only [reduceCtorEq, or_self, if_false] at hodd eW eH hmid
    subst hmid
    obtain ⟨c1, g1, g2⟩ := get y (x + 1) (by omega) (by omega)
    obtain ⟨c1', g1', g3, -, g4⟩ := hl y (x + 1) (by omega) (by omega)
    rw [Int.toNat_natCast, g1] at g1'
    cases g1'
    simp only [Shows, reduceCtorEq, or_self, if_false] at g2
    rw [if_pos (by omega)] at g2
    subst g2
    have hline : line = x + 1 := by
      by_contra hne
      rcases lt_or_gt_of_ne hne with hlt | hgt
      · exact red_shades.2 (g4 hlt)
      · exact red_shades.1 (g3 hgt)
    obtain ⟨c2, k1, k2⟩ := get y x (by omega) (by omega)
    obtain ⟨c2', k1', k3, -⟩ := hl y x (by omega) (by omega)
    rw [Int.toNat_natCast, k1] at k1'
    cases k1'
    simp only [Shows, reduceCtorEq, or_self, if_false] at k2
    rw [if_neg (by omega), if_pos (by omega)] at k2
    subst k2
    exact hnb (hboth _ (k3 (by omega)) (key.1 (by simp only [InHalf]; omega)))

/-- **C126 fails** for `ImgTest`, which draws the line of the left half also when it completes the upper or the lower half: whatever the image, that line does not divide it. -/
theorem C126_test_refuted (half cmpl : VarSet) (t : CmplType) (ht : t = .top ∨ t = .bottom) (w h : Nat) (hw : 0 < w) (hh : 0 < h) (max : Int) : ¬ Divided t (imgCmplToPGM half cmpl .left w h max) := by
  obtain ⟨W, H, hW, hH, eW, eH, -, hp⟩ := C61_pgm_partial half cmpl .left w h max
  simp only [reduceCtorEq, or_self, if_false] at eW eH
  rintro ⟨line, hl⟩
  rw [hW, hH] at hl
  have get : ∀ r c : Nat, r < H → c < W → ∃ col, (imgCmplToPGM half cmpl .left w h max).pixels[r * W + c]? = some col ∧ Shows (drawn1 half cmpl) .left w h r c col := hp
  -- the first row has a red pixel, so the line is there; but the row has pixels that are not red
  obtain ⟨c1, g1, g2⟩ := get 0 ((w + 1) / 2) (by omega) (by omega)
  obtain ⟨c1', g1', g3⟩ := hl 0 ((w + 1) / 2) (by omega) (by omega)
  rw [Int.toNat_natCast, g1] at g1'
  cases g1'
  simp only [Shows, reduceCtorEq, or_self, if_false, if_true] at g2
  subst g2
  obtain ⟨c2, k1, k2⟩ := get 0 0 (by omega) (by omega)
  obtain ⟨c2', k1', k3⟩ := hl 0 0 (by omega) (by omega)
  rw [Int.toNat_natCast, k1] at k1'
  cases k1'
  simp only [Shows, reduceCtorEq, or_self, if_false] at k2
  rw [if_neg (by omega), if_pos (by omega)] at k2
  subst k2
  have hred : drawn1 half cmpl ((0 * w + 0 : Nat) : Int) ≠ (255, 0, 0) := drawn1_shade _ _ _
  rcases ht with rfl | rfl
  · rcases Nat.eq_zero_or_pos line with h0 | h0
    · exact hred (k3.2.1 h0.symm)
    · exact red_shades.2 (g3.1 h0)
  · rcases Nat.eq_zero_or_pos line with h0 | h0
    · exact hred (k3.2.1 h0.symm)
    · exact red_shades.1 (g3.1 h0)

/-- The hypotheses of `C126_line_partial` can be met. -/
example : ∃ half, KnownHalf (image22 0) .top 2 2 half ∧ (∀ x y : Nat, x < 2 → y < 2 → ∃ v, image22 0 (x + y * (2 : Nat)) = some v) ∧ 2 ∣ divides .top 2 2 := by
  obtain ⟨half, -, h⟩ := knownHalf_spec (t := .top) (w := 2) (h := 2) (by decide) (image22_keys 0 [0, 1, 2, 3] (.inl rfl)).1 (image22_keys 0 [0, 1, 2, 3] (.inl rfl)).2
  refine ⟨half, h, ?_, by decide⟩
  intro x y hx hy
  have h1 : x = 0 ∨ x = 1 := by omega
  have h2 : y = 0 ∨ y = 1 := by omega
  rcases h1 with rfl | rfl <;> rcases h2 with rfl | rfl <;> exact ⟨_, rfl⟩

/-- The hypotheses of `C126_odd_refuted` can be met: one white pixel, the upper half of which is nothing. -/
example : ∃ half, KnownHalf (VarSet.single 0 1) .top 1 1 half ∧ (∀ x y : Nat, x < 1 → y < 1 → ∃ v, VarSet.single 0 1 (x + y * (1 : Nat)) = some v) ∧ divides .top 1 1 = 2 * 0 + 1 ∧
    half ((0 : Nat) + (0 : Nat) * (1 : Nat)) ≠ some 0 ∧ (half ((0 : Nat) + (0 : Nat) * (1 : Nat)) = none → False) := by
  have hk : KeysOf 1 1 (VarSet.single 0 1) [0] := by
    constructor
    · intro k
      unfold VarSet.single
      by_cases h : k = 0 <;> simp [h]
    · intro k hk
      simp at hk
      exact ⟨0, 0, by decide, by decide, by simpa using hk⟩
  obtain ⟨half, -, h⟩ := knownHalf_spec (t := .top) (w := 1) (h := 1) (by decide) hk.1 hk.2
  have h0 : half ((0 : Nat) + (0 : Nat) * (1 : Nat)) = some 1 := (h.2 0 0 (by decide) (by decide)).2 (by simp [InHalf])
  refine ⟨half, h, ?_, rfl, by rw [h0]; decide, by rw [h0]; simp⟩
  intro x y hx hy
  have h1 : x = 0 := by omega
  have h2 : y = 0 := by omega
  subst h1 h2
  exact ⟨1, rfl⟩

end Gospn
