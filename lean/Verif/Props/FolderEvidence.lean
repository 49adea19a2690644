import Verif.Props.Folder
set_option linter.unusedSectionVars false
set_option linter.unusedSimpArgs false
/-
C87: PGMFToEvidence compiles a folder of PGM images into an evidence file.
-/
namespace Gospn
open Spec

theorem labelText_eq {ls : List Int} (h : ls ≠ []) : labelText ls = labelLine ls ++ ['\n'] := by
  unfold labelText labelLine
  have key : ∀ (ls : List Int) (i n : Nat), ls ≠ [] → i + ls.length = n →
      [' '] ++ (ls.zipIdx i).flatMap (fun x => if x.2 + 1 = n then itoa x.1 ++ ['\n'] else itoa x.1 ++ [' ']) = (ls.flatMap fun l => ' ' :: decimal l) ++ ['\n'] := by
    intro ls
    induction ls with
    | nil => intro i n h; exact absurd rfl h
    | cons l ls ih =>
      intro i n _ hn
      rw [List.zipIdx_cons, List.flatMap_cons, List.flatMap_cons, itoa_eq]
      cases ls with
      | nil => simp at hn; simp [hn]
      | cons l' ls =>
        rw [if_neg (by simp only [List.length_cons] at hn; omega)]
        have := ih (i + 1) n (by simp) (by simp only [List.length_cons] at hn ⊢; omega)
        rw [List.append_assoc (decimal l), this]
        simp
  have hk := key ls 0 ls.length h (by simp)
  rw [List.append_assoc, hk, itoa_eq]
  have e : "labels ".toList = ['l', 'a', 'b', 'e', 'l', 's', ' '] := rfl
  rw [e]
  simp

/-- Evidence rows as they are written: the pixels, each followed by a blank. -/
theorem evidence_dataText {w h max : Int} (g : Str → Str) {ps : List (List Int × Nat)} {fs : List (Str × Nat)} (P : List Int → Str → Prop) (q : List Int → Str)
    (hg : ∀ px f, P px f → g f = q px)
    (hfs : List.Forall₂ (fun (x : List Int × Nat) (f : Str × Nat) => P x.1 f.1 ∧ x.2 = f.2) ps fs) :
    (pgmDecls w h max).flatMap declText ++ fs.flatMap (fun f => g f.1 ++ ['\n']) = dataText (pixelVars (w * h).toNat (max + 1)) (ps.map fun x => q x.1) := by
  rw [declText_eq]
  have h2 : pgmDecls w h max = pixelVars (w * h).toNat (max + 1) := rfl
  rw [h2]
  unfold dataText unlines
  rw [List.flatMap_append]
  congr 1
  induction hfs with
  | nil => rfl
  | @cons x f ps fs hx _ ih => rw [List.flatMap_cons, ih, List.map_cons, List.flatMap_cons, hg _ _ hx.1]

theorem evidence_dataFile {w h max : Int} {ps : List (List Int × Nat)} (q : List Int → Str) (hw : 0 < w * h) (hwh : Int64Range (w * h)) (hmax : Int64Range (max + 1))
    (hps : ∀ x ∈ ps, (∀ v ∈ x.1, Int64Range v) ∧ WritesRow x.1 (q x.1)) :
    DataFile (pixelVars (w * h).toNat (max + 1)) (ps.map Prod.fst) (ps.map fun x => q x.1) := by
  refine ⟨?_, ?_, ?_, ?_⟩
  · have := pixelVars_ids (w * h).toNat (max + 1) 0 (w * h) (by omega)
    rw [List.map_append] at this
    exact (List.nodup_append.1 this).1
  · intro d hd
    obtain ⟨i, hi, rfl⟩ := List.mem_map.1 hd
    rw [List.mem_range] at hi
    exact ⟨range_of_le (b := w * h) (by simp) (by simp only; omega) hwh, hmax⟩
  · rw [List.forall₂_map_left_iff, List.forall₂_map_right_iff, List.forall₂_same]
    intro x hx
    exact (hps x hx).2
  · intro r hr v hv
    obtain ⟨x, hx, rfl⟩ := List.mem_map.1 hr
    exact (hps x hx).1 v hv

theorem evidence_parse {w h max : Int} {ps : List (List Int × Nat)} (q : List Int → Str) (ls : List Int) (hw : 0 < w * h) (hwh : Int64Range (w * h)) (hmax : Int64Range (max + 1))
    (hne : ps ≠ []) (hls : ls ≠ []) (hlr : ∀ l ∈ ls, Int64Range l) (hln : Int64Range ls.length)
    (hps : ∀ x ∈ ps, (x.1.length : Int) = w * h ∧ (∀ v ∈ x.1, Int64Range v) ∧ WritesRow x.1 (q x.1))
    (hshort : ∀ l ∈ labelLine ls :: ps.map (fun x => q x.1), l.length < 65536) :
    parseEvidence (labelText ls ++ dataText (pixelVars (w * h).toNat (max + 1)) (ps.map fun x => q x.1)) =
      some (pixelVars (w * h).toNat (max + 1), (ps.map Prod.fst).map lineInstance, ls) := by
  have hf := evidence_dataFile q hw hwh hmax fun x hx => (hps x hx).2
  have hpv : (pixelVars (w * h).toNat (max + 1)).length = (w * h).toNat := by simp [pixelVars]
  have hlen : ∀ r ∈ ps.map Prod.fst, r.length = (w * h).toNat := by
    intro r hr
    obtain ⟨x, hx, rfl⟩ := List.mem_map.1 hr
    have := (hps x hx).1
    omega
  rw [labelText_eq hls, List.append_assoc, List.singleton_append, C84_parseEvidence_partial ls hf (by simpa using hne)]
  · congr 3
    apply List.map_congr_left
    intro r hr
    rw [hpv, List.take_of_length_le (by rw [hlen r hr])]
  · intro r hr
    rw [hpv, hlen r hr]
  · intro l hl
    rcases List.mem_cons.1 hl with rfl | hl
    · exact hshort _ (by simp)
    · rcases List.mem_append.1 hl with hl | hl
      · obtain ⟨d, hd, rfl⟩ := List.mem_map.1 hl
        exact declLine_short (hf.declRange d hd)
      · exact hshort l (List.mem_cons_of_mem _ hl)
  · exact hlr
  · exact hln

/-- The labels that are written: the size of each class times its number. -/
def Spec.sizeTimesNumber (imgs : List (List (List Int))) : List Int := imgs.zipIdx.map fun x => (x.1.length : Int) * x.2

theorem startLabels_eq {P : List Int → Str → Prop} {sub : List DirEntry} {imgs : List (List (List Int))} (H : HoldsImages P sub imgs) :
    startLabels (classDirs sub) = sizeTimesNumber imgs := by
  unfold startLabels sizeTimesNumber
  unfold HoldsImages at H
  generalize classDirs sub = dirs at H
  generalize 0 = b
  induction H generalizing b with
  | nil => rfl
  | cons h _ ih => rw [List.zipIdx_cons, List.zipIdx_cons, List.map_cons, List.map_cons, ih, h.length_eq]

theorem sizeTimesNumber_ne_nil {imgs : List (List (List Int))} (hne : classRows imgs ≠ []) : sizeTimesNumber imgs ≠ [] := by
  intro h
  have : imgs = [] := by
    unfold sizeTimesNumber at h
    simpa using h
  subst this
  exact hne rfl

theorem labelledImages_fst (imgs : List (List (List Int))) : (labelledImages imgs).map Prod.fst = imgs.flatten := by
  unfold labelledImages
  generalize 0 = b
  induction imgs generalizing b with
  | nil => rfl
  | cons is imgs ih =>
    rw [List.zipIdx_cons, List.flatMap_cons, List.map_append, ih, List.flatten_cons, List.map_map]
    congr 1
    exact List.map_id' is

/-- The labels are the numbers of the first images of the classes if all classes have the same number of images. -/
theorem C87_labels_partial (imgs : List (List (List Int))) (n : Nat) (hn : ∀ is ∈ imgs, is.length = n) : sizeTimesNumber imgs = startIndices imgs := by
  unfold sizeTimesNumber startIndices
  apply List.ext_getElem
  · simp
  · intro i h1 h2
    have hi : i < imgs.length := by simpa using h1
    have hsum : ∀ k, k ≤ imgs.length → ((imgs.take k).map List.length).sum = n * k := by
      intro k
      induction k with
      | zero => intro _; simp
      | succ k ih =>
        intro hk
        rw [List.take_add_one, List.getElem?_eq_getElem (by omega), List.map_append, List.sum_append, ih (by omega)]
        simp [hn _ (List.getElem_mem (by omega : k < imgs.length))]
        ring
    have := hsum i (by omega)
    simp only [List.getElem_map, List.getElem_zipIdx, List.getElem_range, Nat.zero_add]
    rw [hn _ (List.getElem_mem hi)]
    have h3 : ((imgs.take i).map fun x => (x.length : Int)).sum = ((((imgs.take i).map List.length).sum : Nat) : Int) := by
      rw [Nat.cast_list_sum, List.map_map]
      rfl
    first
      | rw [h3, this]; push_cast; ring
      | (rw [this]; push_cast; ring)

/-- Otherwise they need not be: one image in the first class, two in the second. The second class starts at 1; the label is 2. -/
theorem C87_labels_wrong : ∃ imgs : List (List (List Int)), startIndices imgs = [0, 1] ∧ sizeTimesNumber imgs = [0, 2] :=
  ⟨[[[0]], [[0], [0]]], by decide, by decide⟩

/-- `PGMFToEvidence`, for images whose lines have single blanks between the pixels and no others: `ParseEvidence` reads the pixels and the labels. -/
theorem C87_pgmFToEvidence_partial {w h max : Int} {sub : List DirEntry} {imgs : List (List (List Int))} (H : HoldsImages (PgmText TightRow w h max) sub imgs)
    (hne : classRows imgs ≠ []) (hpos : 0 < w * h) (hwh : Int64Range (w * h)) (hmax : Int64Range (max + 1)) (hn : Int64Range imgs.length)
    (hlab : ∀ l ∈ sizeTimesNumber imgs, Int64Range l)
    (hshort : ∀ l ∈ labelLine (sizeTimesNumber imgs) :: imgs.flatten.map pixelText, l.length < 65536) :
    ∃ text, pgmFToEvidence sub = some (text, w, h, max) ∧
      parseEvidence text = some (pixelVars (w * h).toNat (max + 1), imgs.flatten.map lineInstance, sizeTimesNumber imgs) := by
  have hL := labelled_forall₂ H
  have hall : ∀ x ∈ labelledImages imgs, (x.1.length : Int) = w * h ∧ (∀ v ∈ x.1, Int64Range v) ∧ WritesRow x.1 (pixelText x.1) := by
    intro x hx
    obtain ⟨f, -, hf⟩ := forall₂_mem_right hL.flip x hx
    refine ⟨hf.1.size.2.2, hf.1.range.2.2.2, writesRow_pixels ?_⟩
    intro h0
    have := hf.1.size.2.2
    rw [h0, List.length_nil, Nat.cast_zero] at this
    omega
  have hln : Int64Range (sizeTimesNumber imgs).length := by
    have : (sizeTimesNumber imgs).length = imgs.length := by simp [sizeTimesNumber]
    rw [this]; exact hn
  have hp := evidence_parse (max := max) pixelText (sizeTimesNumber imgs) hpos hwh hmax (labelled_ne_nil hne) (sizeTimesNumber_ne_nil hne) hlab hln hall (by
    intro l hl
    apply hshort
    rw [← labelledImages_fst, List.map_map]
    exact hl)
  rw [labelledImages_fst] at hp
  refine ⟨_, ?_, hp⟩
  have hL' := hL
  unfold pgmFToEvidence
  rw [classDirs_eq, Option.bind_some]
  cases hfs : labelledFiles (classDirs sub) with
  | nil =>
    rw [hfs] at hL
    cases hi : labelledImages imgs with
    | nil => exact absurd hi (labelled_ne_nil hne)
    | cons a b => rw [hi] at hL; cases hL
  | cons f0 fs =>
    rw [hfs] at hL
    cases hi : labelledImages imgs with
    | nil => exact absurd hi (labelled_ne_nil hne)
    | cons a b =>
      rw [hi] at hL
      rcases hL with _ | ⟨h0, -⟩
      simp only [List.getElem?_cons_zero, Option.map_some, pgmHeader_spec (fun _ _ => tightRow_chars) h0.1]
      rw [← hfs, startLabels_eq H, List.append_assoc, evidence_dataText (w := w) (h := h) (max := max) pgmEvidenceBody (PgmText TightRow w h max) pixelText (fun _ _ => pgmEvidenceBody_spec) hL', hi]

/-- Other images are read wrongly: every blank too many is written as a pixel 0. The image of two lines `1 2` and `3 4` that `VarSetToPGM` writes is read as
`1 0` and `2 3`. -/
theorem C87_shifted : ∃ (sub : List DirEntry) (px : List Int), HoldsImages (PgmFile 2 2 9) sub [[px]] ∧
    ∃ text vars D labels, pgmFToEvidence sub = some (text, 2, 2, 9) ∧ parseEvidence text = some (vars, D, labels) ∧ D.length = 1 ∧ ∀ t ∈ D, t ≠ lineInstance px := by
  have hr : ∀ v : Int, 0 ≤ v → v < 100 → Int64Range v := fun v h1 h2 => ⟨by omega, by omega⟩
  refine ⟨[⟨"a".toList, true, [pgmText [1, 2, 3, 4] 2 2 9]⟩], [1, 2, 3, 4], ?_, ?_⟩
  · exact List.Forall₂.cons (List.Forall₂.cons (C86_written_image (by norm_num) (by norm_num) (by norm_num) (by norm_num) (by simp [hr])) List.Forall₂.nil) List.Forall₂.nil
  · have e : ((pgmFToEvidence [⟨"a".toList, true, [pgmText [1, 2, 3, 4] 2 2 9]⟩]).bind fun r => (parseEvidence r.1).map fun p => (r.2, p.2.1.map fun t => t 1)) =
      some ((2, 2, 9), [some 0]) := by decide +kernel
    obtain ⟨r, h1, h2⟩ := Option.bind_eq_some_iff.1 e
    obtain ⟨q, h3, h4⟩ := Option.map_eq_some_iff.1 h2
    obtain ⟨text, wh⟩ := r
    obtain ⟨vars, D, labels⟩ := q
    simp only [Prod.mk.injEq] at h4
    obtain ⟨rfl, h5⟩ := h4
    refine ⟨text, vars, D, labels, h1, h3, ?_, ?_⟩
    · have := congrArg List.length h5
      simpa using this
    · intro t ht he
      have : t 1 ∈ D.map fun t => t 1 := List.mem_map_of_mem (f := fun t : VarSet => t 1) ht
      rw [h5, List.mem_singleton, he] at this
      exact absurd this (by decide)

/-- The hypotheses hold for two classes of one tight image each. -/
example : ∃ f1 f2, HoldsImages (PgmText TightRow 2 2 9) [⟨"a".toList, true, [f1]⟩, ⟨"b".toList, true, [f2]⟩] [[[1, 2, 3, 4]], [[0, 0, 9, 9]]] ∧
    (∀ l ∈ labelLine (sizeTimesNumber [[[1, 2, 3, 4]], [[0, 0, 9, 9]]]) :: [[[1, 2, 3, 4]], [[0, 0, 9, 9]]].flatten.map pixelText, l.length < 65536) := by
  have hr : ∀ v : Int, 0 ≤ v → v < 100 → Int64Range v := fun v h1 h2 => ⟨by omega, by omega⟩
  have key : ∀ a b c d : Int, Int64Range a → Int64Range b → Int64Range c → Int64Range d → PgmText TightRow 2 2 9 [a, b, c, d]
      (joinLines ["P2".toList, decimal 2 ++ ' ' :: decimal 2, decimal 9, decimal a ++ ' ' :: decimal b, decimal c ++ ' ' :: decimal d]) := by
    intro a b c d ha hb hc hd
    refine ⟨by norm_num, ⟨hr 2 (by norm_num) (by norm_num), hr 2 (by norm_num) (by norm_num), hr 9 (by norm_num) (by norm_num), by simp [ha, hb, hc, hd]⟩, [[a, b], [c, d]], _,
      List.Forall₂.cons (TightRow.more a [b] _ (TightRow.last b)) (List.Forall₂.cons (TightRow.more c [d] _ (TightRow.last d)) List.Forall₂.nil), rfl, ?_, rfl⟩
    have := decimal_length ha; have := decimal_length hb; have := decimal_length hc; have := decimal_length hd
    intro l hl
    simp only [List.mem_cons, List.not_mem_nil, or_false] at hl
    rcases hl with rfl | rfl <;> simp only [List.length_append, List.length_cons] <;> omega
  refine ⟨_, _, List.Forall₂.cons (List.Forall₂.cons (key 1 2 3 4 ?_ ?_ ?_ ?_) List.Forall₂.nil) (List.Forall₂.cons (List.Forall₂.cons (key 0 0 9 9 ?_ ?_ ?_ ?_) List.Forall₂.nil) List.Forall₂.nil), ?_⟩
  all_goals try exact hr _ (by norm_num) (by norm_num)
  have : (labelLine (sizeTimesNumber [[[1, 2, 3, 4]], [[0, 0, 9, 9]]]) :: [[[1, 2, 3, 4]], [[0, 0, 9, 9]]].flatten.map pixelText).all (fun r => decide (r.length < 65536)) = true := by decide +kernel
  intro r hr
  simpa using List.all_eq_true.1 this r hr

end Gospn
