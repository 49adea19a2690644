import Verif.Props.FolderEvidence
set_option linter.unusedSectionVars false
set_option linter.unusedSimpArgs false
/-
C88: PBMFToData, PBMToData and PBMFToEvidence compile folders of PBM images.
-/
namespace Gospn
open Spec

/-- Values, each followed by blanks. -/
inductive SepText : List Int → Str → Prop
  | nil : SepText [] []
  | cons (v : Int) (n : Nat) (vs : List Int) (l : Str) (h : SepText vs l) : SepText (v :: vs) (decimal v ++ (List.replicate (n + 1) ' ' ++ l))

theorem SepText.append {vs us : List Int} {l t : Str} (h : SepText vs l) (h' : SepText us t) : SepText (vs ++ us) (l ++ t) := by
  induction h with
  | nil => exact h'
  | cons v n vs l _ ih =>
    have := SepText.cons v n _ _ ih
    simpa using this

theorem blanks_sep (n : Nat) : ∀ c ∈ List.replicate n ' ', IsSep c := fun _ hc => Or.inr (Or.inl (List.eq_of_mem_replicate hc))

theorem SepText.writes {vs us : List Int} {l t : Str} (h : SepText vs l) (h' : WritesRow us t) : WritesRow (vs ++ us) (l ++ t) := by
  induction h with
  | nil => exact h'
  | cons v n vs l _ ih =>
    have := WritesRow.cons v (List.replicate (n + 1) ' ') _ _ (by simp) (blanks_sep _) ih
    simpa using this

theorem SepText.writes_self {vs : List Int} {l : Str} (h : SepText vs l) (hne : vs ≠ []) : WritesRow vs l := by
  induction h with
  | nil => exact absurd rfl hne
  | cons v n vs l h ih =>
    cases vs with
    | nil =>
      cases h
      have := WritesRow.last v (List.replicate (n + 1) ' ') (blanks_sep _)
      simpa using this
    | cons v' vs => exact WritesRow.cons v (List.replicate (n + 1) ' ') _ _ (by simp) (blanks_sep _) (ih (by simp))

theorem SepText.length {vs : List Int} {l : Str} (h : SepText vs l) : 2 * vs.length ≤ l.length := by
  induction h with
  | nil => simp
  | cons v n vs l _ ih =>
    have := List.length_pos_iff.2 (decimal_ne_nil v)
    rw [List.length_append, List.length_append, List.length_replicate, List.length_cons]
    omega

theorem decimal_bit {v : Int} (h : v = 0 ∨ v = 1) : ∃ c, decimal v = [c] ∧ c ≠ '\n' ∧ c ≠ '\r' := by
  rcases h with rfl | rfl
  · exact ⟨'0', by decide +kernel, by decide, by decide⟩
  · exact ⟨'1', by decide +kernel, by decide, by decide⟩

theorem replicate_blank_pairs (n : Nat) : (List.replicate n ' ').flatMap (fun c => [c, ' ']) = List.replicate (2 * n) ' ' := by
  induction n with
  | zero => rfl
  | succ n ih => rw [List.replicate_succ, List.flatMap_cons, ih, show 2 * (n + 1) = 2 * n + 1 + 1 by omega, List.replicate_succ, List.replicate_succ]; rfl

theorem bitRow_sep {vs : List Int} {l : Str} (h : BitRow vs l) : SepText vs (l.flatMap fun c => [c, ' ']) := by
  induction h with
  | nil => exact SepText.nil
  | bit v hv n vs l _ ih =>
    obtain ⟨c, hc, -⟩ := decimal_bit hv
    have := SepText.cons v (2 * n) vs _ ih
    rw [List.flatMap_append, List.flatMap_append, replicate_blank_pairs, hc]
    rw [hc, List.replicate_succ] at this
    simpa using this

theorem bitRow_chars {vs : List Int} {l : Str} (h : BitRow vs l) : '\n' ∉ l ∧ '\r' ∉ l := by
  induction h with
  | nil => simp
  | bit v hv n vs l _ ih => simp [decimal_chars v, ih]

theorem bitRow_range {vs : List Int} {l : Str} (h : BitRow vs l) : ∀ v ∈ vs, Int64Range v := by
  induction h with
  | nil => simp
  | bit v hv n vs l _ ih =>
    intro x hx
    rcases List.mem_cons.1 hx with rfl | hx
    · rcases hv with rfl | rfl <;> exact ⟨by norm_num, by norm_num⟩
    · exact ih x hx

theorem bitRows_sep {rows : List (List Int)} {body : List Str} (h : List.Forall₂ BitRow rows body) :
    SepText rows.flatten (body.flatMap fun line => line.flatMap fun c => [c, ' ']) := by
  induction h with
  | nil => exact SepText.nil
  | cons h _ ih => exact (bitRow_sep h).append ih

theorem PbmFile_scan {w h : Int} {px : List Int} {text : Str} (H : PbmFile w h px text) :
    SepText px (pbmBody text) ∧ scanPair ((scanLines text).getD 1 []) = (w, h) ∧ (∀ v ∈ px, Int64Range v) := by
  obtain ⟨rows, body, h1, h2, h3, h4⟩ := H.lines
  have hc : ∀ l ∈ ["P1".toList] ++ (decimal w ++ ' ' :: decimal h) :: body, '\n' ∉ l ∧ '\r' ∉ l := by
    intro l hl
    simp only [List.cons_append, List.nil_append, List.mem_cons] at hl
    rcases hl with rfl | rfl | hl
    · decide
    · exact header_chars w h
    · obtain ⟨a, -, ha⟩ := forall₂_mem_right h1 l hl
      exact bitRow_chars ha
  have hs : ∀ l ∈ ["P1".toList] ++ (decimal w ++ ' ' :: decimal h) :: body, l.length < 65536 := by
    intro l hl
    simp only [List.cons_append, List.nil_append, List.mem_cons] at hl
    rcases hl with rfl | rfl | hl
    · decide
    · have := decimal_length H.range.1; have := decimal_length H.range.2
      simp only [List.length_append, List.length_cons]; omega
    · exact h3 l hl
  obtain ⟨body', h5, h6⟩ := scanLines_head (by simp) hc hs
  have hscan : scanLines text = "P1".toList :: (decimal w ++ ' ' :: decimal h) :: body' := by rw [h4]; exact h5
  refine ⟨?_, ?_, ?_⟩
  · unfold pbmBody
    rw [hscan, List.drop_succ_cons, List.drop_succ_cons, List.drop_zero, ← h2]
    have := bitRows_sep h1
    rcases h6 with rfl | rfl
    · exact this
    · rw [List.flatMap_append] at this
      simpa using this
  · rw [hscan]
    simp only [List.getD_cons_succ, List.getD_cons_zero, scanPair_spec H.range.1 H.range.2]
  · intro v hv
    rw [← h2] at hv
    obtain ⟨r, hr, hv⟩ := List.mem_flatten.1 hv
    obtain ⟨l, -, hl⟩ := forall₂_mem_right h1.flip r hr
    exact bitRow_range hl v hv

theorem sumLength_joinLines (ls : List Str) : (ls.flatten).length ≤ (joinLines ls).length := by
  induction ls with
  | nil => simp [joinLines]
  | cons l ls ih =>
    cases ls with
    | nil => simp [joinLines]
    | cons l' ls =>
      rw [List.flatten_cons, List.length_append, joinLines, List.length_append, List.length_cons]
      omega

theorem flatMap_pairs_length (l : Str) : (l.flatMap fun c => [c, ' ']).length = 2 * l.length := by
  induction l with
  | nil => rfl
  | cons c l ih => rw [List.flatMap_cons, List.length_append, ih, List.length_cons]; simp; omega

theorem consFirst_flatten (c : Char) (ls : List Str) : (consFirst c ls).flatten = c :: ls.flatten := by
  cases ls <;> simp [consFirst]

theorem splitAt1_flatten (p : Char → Bool) (s : Str) : ((splitAt1 p s).flatten).length ≤ s.length := by
  induction s with
  | nil => simp [splitAt1]
  | cons c s ih =>
    rw [splitAt1]
    split
    · rw [List.flatten_cons, List.nil_append, List.length_cons]; omega
    · rw [consFirst_flatten, List.length_cons, List.length_cons]; omega

/-- At most two characters are written for each character of the image. -/
theorem pbmBody_length (text : Str) : (pbmBody text).length ≤ 2 * text.length := by
  unfold pbmBody
  have h1 : ∀ ls : List Str, (ls.flatMap fun line => line.flatMap fun c => [c, ' ']).length = 2 * ls.flatten.length := by
    intro ls
    induction ls with
    | nil => rfl
    | cons l ls ih => rw [List.flatMap_cons, List.length_append, ih, flatMap_pairs_length, List.flatten_cons, List.length_append]; omega
  rw [h1]
  have h2 : ∀ {a b : List Str}, a.Sublist b → a.flatten.length ≤ b.flatten.length := fun h => h.flatten.length_le
  have h3 : (scanLines text).flatten.length ≤ text.length := by
    unfold scanLines
    simp only
    have h4 : ∀ ls : List Str, (ls.map dropCR).flatten.length ≤ ls.flatten.length := by
      intro ls
      induction ls with
      | nil => simp
      | cons l ls ih =>
        have : (dropCR l).length ≤ l.length := by
          unfold dropCR
          split
          · simp
          · exact le_rfl
        simp only [List.map_cons, List.flatten_cons, List.length_append]
        omega
    refine (h4 _).trans (le_trans (h2 (List.takeWhile_sublist _)) (le_trans ?_ (splitAt1_flatten (· = '\n') text)))
    split
    · exact h2 (List.dropLast_sublist _)
    · exact le_rfl
  have := h2 (List.drop_sublist 2 (scanLines text))
  omega

/-- `PBMFToData` writes a data file. -/
theorem pbm_decls (w h : Int) : pgmDecls w h 1 = pixelVars (w * h).toNat 2 := rfl

/-- The rows of a list of files, with what is appended to each. -/
theorem pbm_rows {w h : Int} {ps : List (List Int × Nat)} {fs : List (Str × Nat)}
    (hfs : List.Forall₂ (fun (x : List Int × Nat) (f : Str × Nat) => PbmFile w h x.1 f.1 ∧ x.2 = f.2) ps fs) :
    List.Forall₂ WritesRow (ps.map fun x => x.1 ++ [(x.2 : Int)]) (fs.map fun f => pbmBody f.1 ++ decimal (f.2 : Int)) := by
  rw [List.forall₂_map_left_iff, List.forall₂_map_right_iff]
  refine hfs.imp fun x f h => ?_
  rw [h.2]
  have h0 : WritesRow [(f.2 : Int)] (decimal f.2) := by simpa using WritesRow.last (f.2 : Int) [] (by simp)
  exact (PbmFile_scan h.1).1.writes h0

theorem pbm_files {w h : Int} {sub : List DirEntry} {imgs : List (List (List Int))} (H : HoldsImages (PbmFile w h) sub imgs) (hne : classRows imgs ≠ []) :
    ∃ f0 fs, labelledFiles (classDirs sub) = f0 :: fs ∧ scanPair ((scanLines f0.1).getD 1 []) = (w, h) ∧ 0 ≤ w * h ∧
      (∀ x ∈ labelledImages imgs, (x.1.length : Int) = w * h ∧ x.2 < imgs.length ∧ ∀ v ∈ x.1, Int64Range v) := by
  have hL := labelled_forall₂ H
  have hall : ∀ x ∈ labelledImages imgs, (x.1.length : Int) = w * h ∧ x.2 < imgs.length ∧ ∀ v ∈ x.1, Int64Range v := by
    intro x hx
    obtain ⟨f, -, hf⟩ := forall₂_mem_right hL.flip x hx
    exact ⟨hf.1.size.2.2, labelled_lt x hx, (PbmFile_scan hf.1).2.2⟩
  cases hL' : labelledImages imgs with
  | nil => exact absurd hL' (labelled_ne_nil hne)
  | cons x xs =>
    cases hfs : labelledFiles (classDirs sub) with
    | nil => rw [hfs, hL'] at hL; cases hL
    | cons f0 fs =>
      rw [hfs, hL'] at hL
      rcases hL with _ | ⟨h1, -⟩
      exact ⟨f0, fs, rfl, (PbmFile_scan h1.1).2.1, mul_nonneg h1.1.size.1 h1.1.size.2.1, by rw [← hL']; exact hall⟩

theorem pbmFToData_text {w h : Int} {sub : List DirEntry} {imgs : List (List (List Int))} (H : HoldsImages (PbmFile w h) sub imgs) (hne : classRows imgs ≠ []) :
    pbmFToData sub = some (dataText (pixelVars (w * h).toNat 2 ++ [(w * h, (imgs.length : Int))])
      ((labelledFiles (classDirs sub)).map fun f => pbmBody f.1 ++ decimal (f.2 : Int))) := by
  obtain ⟨f0, fs, h1, h2, -, -⟩ := pbm_files H hne
  unfold pbmFToData
  rw [classDirs_eq, Option.bind_some]
  simp only [h1, List.getElem?_cons_zero, Option.map_some, h2]
  rw [← h1, HoldsImages_length H]
  have e1 : declText (w * h, (imgs.length : Int)) = ([(w * h, (imgs.length : Int))] : List (Int × Int)).flatMap declText := by simp
  rw [e1, ← List.flatMap_append, declText_eq, pbm_decls]
  unfold dataText unlines
  rw [List.flatMap_append, List.flatMap_map (f := fun f : Str × Nat => pbmBody f.1 ++ decimal (f.2 : Int))]
  simp only [itoa_eq]

theorem pbm_dataFile {w h : Int} {sub : List DirEntry} {imgs : List (List (List Int))} (H : HoldsImages (PbmFile w h) sub imgs)
    (hne : classRows imgs ≠ []) (hwh : Int64Range (w * h)) (hn : Int64Range imgs.length) :
    DataFile (pixelVars (w * h).toNat 2 ++ [(w * h, (imgs.length : Int))]) (classRows imgs) ((labelledFiles (classDirs sub)).map fun f => pbmBody f.1 ++ decimal (f.2 : Int)) := by
  obtain ⟨f0, fs, -, -, h3, h4⟩ := pbm_files H hne
  have hf := pgm_dataFile (max := 1) h3 hwh ⟨by norm_num, by norm_num⟩ hn fun x hx => (h4 x hx).2
  rw [← classRows_eq] at hf
  refine ⟨hf.ids, hf.declRange, ?_, hf.rowRange⟩
  rw [classRows_eq]
  exact pbm_rows (labelled_forall₂ H)

theorem labelledFiles_mem {dirs : List DirEntry} {f : Str × Nat} (h : f ∈ labelledFiles dirs) : f.2 < dirs.length ∧ ∃ d ∈ dirs, f.1 ∈ d.files := by
  unfold labelledFiles at h
  obtain ⟨y, hy, hx⟩ := List.mem_flatMap.1 h
  obtain ⟨g, hg, rfl⟩ := List.mem_map.1 hx
  have := List.mem_zipIdx_iff_getElem?.1 hy
  exact ⟨(List.getElem?_eq_some_iff.1 this).1, y.1, List.mem_of_getElem? this, hg⟩

theorem pbm_rowLength {w h : Int} {sub : List DirEntry} {imgs : List (List (List Int))} (H : HoldsImages (PbmFile w h) sub imgs) (hne : classRows imgs ≠ []) :
    ∀ r ∈ classRows imgs, r.length = (w * h).toNat + 1 := by
  obtain ⟨f0, fs, -, -, h3, h4⟩ := pbm_files H hne
  intro r hr
  rw [classRows_eq] at hr
  obtain ⟨x, hx, rfl⟩ := List.mem_map.1 hr
  have := (h4 x hx).1
  rw [List.length_append, List.length_singleton]
  omega

/-- `PBMFToData` writes a file from which `ParseData` reads the dataset of the images, if no image has more than 32750 characters. -/
theorem C88_pbmFToData_partial {w h : Int} {sub : List DirEntry} {imgs : List (List (List Int))} (H : HoldsImages (PbmFile w h) sub imgs)
    (hne : classRows imgs ≠ []) (hwh : Int64Range (w * h)) (hn : Int64Range imgs.length) (hshort : ∀ d ∈ classDirs sub, ∀ f ∈ d.files, f.length ≤ 32750) :
    ∃ text, pbmFToData sub = some text ∧
      parseData text = some (pixelVars (w * h).toNat 2 ++ [(w * h, (imgs.length : Int))], (classRows imgs).map lineInstance) := by
  refine ⟨_, pbmFToData_text H hne, ?_⟩
  have hf := pbm_dataFile H hne hwh hn
  have hlen := pbm_rowLength H hne
  rw [C84_parseData_partial hf hne]
  · congr 2
    apply List.map_congr_left
    intro r hr
    rw [pixelVars_length, List.take_of_length_le (by rw [hlen r hr])]
  · intro r hr
    rw [pixelVars_length, hlen r hr]
  · intro l hl
    rcases List.mem_append.1 hl with hl | hl
    · obtain ⟨d, hd, rfl⟩ := List.mem_map.1 hl
      exact declLine_short (hf.declRange d hd)
    · obtain ⟨f, hfm, rfl⟩ := List.mem_map.1 hl
      obtain ⟨h1, d, hd, h2⟩ := labelledFiles_mem hfm
      rw [HoldsImages_length H] at h1
      have h3 := pbmBody_length f.1
      have h4 := hshort d hd f.1 h2
      have h5 := decimal_length (range_of_le (by simp) (by omega : ((f.2 : Nat) : Int) ≤ imgs.length) hn)
      rw [List.length_append]
      omega

/-- Images of 32768 or more pixels: the written file cannot be read. -/
theorem C88_large_images {w h : Int} {sub : List DirEntry} {imgs : List (List (List Int))} (H : HoldsImages (PbmFile w h) sub imgs)
    (hne : classRows imgs ≠ []) (hwh : Int64Range (w * h)) (hn : Int64Range imgs.length) (hbig : 32768 ≤ w * h) :
    ∃ text, pbmFToData sub = some text ∧ parseData text = none := by
  refine ⟨_, pbmFToData_text H hne, ?_⟩
  have hf := pbm_dataFile H hne hwh hn
  have hL := labelled_forall₂ H
  obtain ⟨f0, fs, h1, -, -, h4⟩ := pbm_files H hne
  have hlong : 65536 ≤ (pbmBody f0.1 ++ decimal (f0.2 : Int)).length := by
    obtain ⟨x, hx, hxf⟩ := forall₂_mem_right hL f0 (by rw [h1]; simp)
    have h5 := (PbmFile_scan hxf.1).1.length
    have h6 := (h4 x hx).1
    rw [List.length_append]
    omega
  have hds : ∀ l ∈ (pixelVars (w * h).toNat 2 ++ [(w * h, (imgs.length : Int))]).map declLine, l.length < 65536 := by
    intro l hl
    obtain ⟨d, hd, rfl⟩ := List.mem_map.1 hl
    exact declLine_short (hf.declRange d hd)
  have hno := C84_no_rows (by simp) hf.ids hf.declRange hds
  rw [← hno]
  have hc := DataFile_chars hf
  unfold parseData dataText
  rw [scanLines_unlines hc, h1, List.map_cons, List.takeWhile_append_of_pos fun l hl => by simpa using hds l hl, List.takeWhile_cons_of_neg (by simpa using hlong), List.append_nil,
    scanLines_unlines fun l hl => hc l (by simp only [List.mem_append]; exact Or.inl hl), takeWhile_all' fun l hl => by simpa using hds l hl]

/-! ### One folder -/

/-- `PBMToData`: whatever the class, `ParseData` reads the pixels only. The class is not written if it is not positive, and ignored otherwise, because no variable
is declared for it. -/
theorem C88_pbmToData_class_lost {w h : Int} {files : List Str} {pxs : List (List Int)} (H : List.Forall₂ (PbmFile w h) pxs files) (hne : pxs ≠ []) (hpos : 0 < w * h)
    (hwh : Int64Range (w * h)) (cls : Int) (hcls : Int64Range cls) (hshort : ∀ f ∈ files, f.length ≤ 32750) :
    ∃ text, pbmToData files cls = some text ∧ parseData text = some (pixelVars (w * h).toNat 2, pxs.map lineInstance) := by
  set tail : Str := if 0 < cls then decimal cls else [] with htail
  set extra : List Int := if 0 < cls then [cls] else [] with hextra
  have hpv : (pixelVars (w * h).toNat 2).length = (w * h).toNat := by simp [pixelVars]
  have hall : ∀ px ∈ pxs, (px.length : Int) = w * h ∧ ∀ v ∈ px, Int64Range v := by
    intro px hpx
    obtain ⟨f, -, hf⟩ := forall₂_mem_right H.flip px hpx
    exact ⟨hf.size.2.2, (PbmFile_scan hf).2.2⟩
  have hw : List.Forall₂ WritesRow (pxs.map fun px => px ++ extra) (files.map fun f => pbmBody f ++ tail) := by
    rw [List.forall₂_map_left_iff, List.forall₂_map_right_iff]
    have H' := List.forall₂_iff_get.1 H
    refine List.forall₂_iff_get.2 ⟨H'.1, fun i h1 h2 => ?_⟩
    have hi := H'.2 i h1 h2
    have hs := (PbmFile_scan hi).1
    have hne' : pxs.get ⟨i, h1⟩ ≠ [] := by
      intro h0
      have := hi.size.2.2
      rw [h0, List.length_nil, Nat.cast_zero] at this
      omega
    rw [htail, hextra]
    by_cases hc : 0 < cls
    · rw [if_pos hc, if_pos hc]
      have h0 : WritesRow [cls] (decimal cls) := by simpa using WritesRow.last cls [] (by simp)
      exact hs.writes h0
    · rw [if_neg hc, if_neg hc, List.append_nil, List.append_nil]
      exact hs.writes_self hne'
  have hf : DataFile (pixelVars (w * h).toNat 2) (pxs.map fun px => px ++ extra) (files.map fun f => pbmBody f ++ tail) := by
    refine ⟨?_, ?_, hw, ?_⟩
    · have := pixelVars_ids (w * h).toNat 2 0 (w * h) (by omega)
      rw [List.map_append] at this
      exact (List.nodup_append.1 this).1
    · intro d hd
      obtain ⟨i, hi, rfl⟩ := List.mem_map.1 hd
      rw [List.mem_range] at hi
      exact ⟨range_of_le (b := w * h) (by simp) (by simp only; omega) hwh, ⟨by norm_num, by norm_num⟩⟩
    · intro r hr v hv
      obtain ⟨px, hpx, rfl⟩ := List.mem_map.1 hr
      rcases List.mem_append.1 hv with hv | hv
      · exact (hall px hpx).2 v hv
      · rw [hextra] at hv
        split at hv
        · rw [List.mem_singleton] at hv
          subst hv
          exact hcls
        · simp at hv
  have htext : pbmToData files cls = some (dataText (pixelVars (w * h).toNat 2) (files.map fun f => pbmBody f ++ tail)) := by
    obtain ⟨px, pxs', rfl⟩ := List.exists_cons_of_ne_nil hne
    rcases H with _ | ⟨h0, -⟩
    unfold pbmToData
    simp only [List.getElem?_cons_zero, Option.map_some, (PbmFile_scan h0).2.1]
    rw [declText_eq, pbm_decls]
    unfold dataText unlines
    rw [List.flatMap_append, List.flatMap_map (f := fun f : Str => pbmBody f ++ tail)]
    simp only [itoa_eq, htail]
  refine ⟨_, htext, ?_⟩
  rw [C84_parseData_partial hf (by simpa using hne)]
  · rw [List.map_map]
    congr 2
    apply List.map_congr_left
    intro px hpx
    have := (hall px hpx).1
    simp only [Function.comp_apply]
    rw [hpv, List.take_append_of_le_length (by omega), List.take_of_length_le (by omega)]
  · intro r hr
    obtain ⟨px, hpx, rfl⟩ := List.mem_map.1 hr
    have := (hall px hpx).1
    rw [hpv, List.length_append]
    omega
  · intro l hl
    rcases List.mem_append.1 hl with hl | hl
    · obtain ⟨d, hd, rfl⟩ := List.mem_map.1 hl
      exact declLine_short (hf.declRange d hd)
    · obtain ⟨f, hfm, rfl⟩ := List.mem_map.1 hl
      have h3 := pbmBody_length f
      have h4 := hshort f hfm
      have h5 : tail.length ≤ 20 := by
        rw [htail]
        split
        · exact decimal_length hcls
        · simp
      rw [List.length_append]
      omega

/-! ### Evidence -/

/-- `PBMFToEvidence`: `ParseEvidence` reads the pixels; the labels are as for PGM (C87). -/
theorem C88_pbmFToEvidence_partial {w h : Int} {sub : List DirEntry} {imgs : List (List (List Int))} (H : HoldsImages (PbmFile w h) sub imgs)
    (hne : classRows imgs ≠ []) (hpos : 0 < w * h) (hwh : Int64Range (w * h)) (hn : Int64Range imgs.length) (hlab : ∀ l ∈ sizeTimesNumber imgs, Int64Range l)
    (hls : (labelLine (sizeTimesNumber imgs)).length < 65536) (hshort : ∀ d ∈ classDirs sub, ∀ f ∈ d.files, f.length ≤ 32750) :
    ∃ text, pbmFToEvidence sub = some text ∧ parseEvidence text = some (pixelVars (w * h).toNat 2, imgs.flatten.map lineInstance, sizeTimesNumber imgs) := by
  have hL := labelled_forall₂ H
  obtain ⟨f0, fs, h1, h2, h3, h4⟩ := pbm_files H hne
  have hpv : (pixelVars (w * h).toNat 2).length = (w * h).toNat := by simp [pixelVars]
  have hall : ∀ px ∈ imgs.flatten, (px.length : Int) = w * h ∧ ∀ v ∈ px, Int64Range v := by
    intro px hpx
    rw [← labelledImages_fst] at hpx
    obtain ⟨x, hx, rfl⟩ := List.mem_map.1 hpx
    exact ⟨(h4 x hx).1, (h4 x hx).2.2⟩
  have hw : List.Forall₂ WritesRow imgs.flatten ((labelledFiles (classDirs sub)).map fun f => pbmBody f.1) := by
    rw [← labelledImages_fst, List.forall₂_map_left_iff, List.forall₂_map_right_iff]
    refine hL.imp fun x f hxf => (PbmFile_scan hxf.1).1.writes_self ?_
    intro h0
    have := hxf.1.size.2.2
    rw [h0, List.length_nil, Nat.cast_zero] at this
    omega
  have hf : DataFile (pixelVars (w * h).toNat 2) imgs.flatten ((labelledFiles (classDirs sub)).map fun f => pbmBody f.1) := by
    refine ⟨?_, ?_, hw, fun r hr => (hall r hr).2⟩
    · have := pixelVars_ids (w * h).toNat 2 0 (w * h) (by omega)
      rw [List.map_append] at this
      exact (List.nodup_append.1 this).1
    · intro d hd
      obtain ⟨i, hi, rfl⟩ := List.mem_map.1 hd
      rw [List.mem_range] at hi
      exact ⟨range_of_le (b := w * h) (by simp) (by simp only; omega) hwh, ⟨by norm_num, by norm_num⟩⟩
  have htext : pbmFToEvidence sub = some (labelLine (sizeTimesNumber imgs) ++ '\n' :: dataText (pixelVars (w * h).toNat 2) ((labelledFiles (classDirs sub)).map fun f => pbmBody f.1)) := by
    unfold pbmFToEvidence
    rw [classDirs_eq, Option.bind_some]
    simp only [h1, List.getElem?_cons_zero, Option.map_some, h2]
    rw [← h1, startLabels_eq H, labelText_eq (sizeTimesNumber_ne_nil hne), declText_eq, pbm_decls]
    unfold dataText unlines
    rw [List.flatMap_append, List.flatMap_map (f := fun f : Str × Nat => pbmBody f.1)]
    simp
  refine ⟨_, htext, ?_⟩
  rw [C84_parseEvidence_partial _ hf]
  · congr 3
    apply List.map_congr_left
    intro px hpx
    have := (hall px hpx).1
    rw [hpv, List.take_of_length_le (by omega)]
  · rw [← labelledImages_fst]
    simpa using labelled_ne_nil hne
  · intro px hpx
    have := (hall px hpx).1
    rw [hpv]
    omega
  · intro l hl
    rcases List.mem_cons.1 hl with rfl | hl
    · exact hls
    rcases List.mem_append.1 hl with hl | hl
    · obtain ⟨d, hd, rfl⟩ := List.mem_map.1 hl
      exact declLine_short (hf.declRange d hd)
    · obtain ⟨f, hfm, rfl⟩ := List.mem_map.1 hl
      obtain ⟨-, d, hd, h6⟩ := labelledFiles_mem hfm
      have h7 := pbmBody_length f.1
      have h8 := hshort d hd f.1 h6
      omega
  · exact hlab
  · have : (sizeTimesNumber imgs).length = imgs.length := by simp [sizeTimesNumber]
    rw [this]; exact hn

/-! ### Images written by VarSetToPBM -/

theorem pbmText_lines : ∀ (px : List Int) (i : Nat), (∀ v ∈ px, v = 0 ∨ v = 1) →
    ∃ (r0 : List Int) (rows : List (List Int)) (l0 : Str) (ls : List Str), List.Forall₂ BitRow (r0 :: rows) (l0 :: ls) ∧ (r0 :: rows).flatten = px ∧
      l0.length ≤ (71 - i % 71) % 71 ∧ (∀ l ∈ ls, l.length ≤ 71) ∧
      ((px.zipIdx i).flatMap fun x => (if x.2 % 71 = 0 then ['\n'] else []) ++ itoa x.1) = joinLines (l0 :: ls) := by
  intro px
  induction px with
  | nil =>
    intro i _
    exact ⟨[], [], [], [], List.Forall₂.cons BitRow.nil List.Forall₂.nil, rfl, by simp, by simp, rfl⟩
  | cons v px ih =>
    intro i hr
    obtain ⟨r0, rows, l0, ls, h1, h2, h3, h4, h5⟩ := ih (i + 1) fun x hx => hr x (by simp [hx])
    obtain ⟨c, hd, -⟩ := decimal_bit (hr v (by simp))
    have hrow : BitRow (v :: r0) (decimal v ++ l0) := by
      rcases h1 with _ | ⟨h1, -⟩
      exact BitRow.bit v (hr v (by simp)) 0 r0 l0 h1
    have hrest : List.Forall₂ BitRow rows ls := by
      rcases h1 with _ | ⟨-, h1⟩
      exact h1
    have hlen : (decimal v ++ l0).length = 1 + l0.length := by rw [hd]; simp; omega
    have hj : decimal v ++ joinLines (l0 :: ls) = joinLines ((decimal v ++ l0) :: ls) := by
      cases ls <;> simp [joinLines]
    rw [List.zipIdx_cons, List.flatMap_cons, h5]
    by_cases hz : i % 71 = 0
    · refine ⟨[], (v :: r0) :: rows, [], (decimal v ++ l0) :: ls, List.Forall₂.cons BitRow.nil (List.Forall₂.cons hrow hrest), by simpa using h2, by simp, ?_, ?_⟩
      · intro l hl
        rcases List.mem_cons.1 hl with rfl | hl
        · omega
        · exact h4 l hl
      · simp only [hz, if_true, itoa_eq]
        rw [joinLines, ← hj]
        simp
    · refine ⟨v :: r0, rows, decimal v ++ l0, ls, List.Forall₂.cons hrow hrest, by simpa using h2, by omega, h4, ?_⟩
      simp only [hz, if_false, itoa_eq]
      rw [← hj]
      simp

/-- The text that `VarSetToPBM` writes for a binary state is an image with these pixels. -/
theorem C88_written_image {w h : Int} {px : List Int} (hw : 0 ≤ w) (hh : 0 ≤ h) (hlen : (px.length : Int) = w * h) (hr : Int64Range w ∧ Int64Range h)
    (hb : ∀ v ∈ px, v = 0 ∨ v = 1) : PbmFile w h px (pbmText px w h) := by
  obtain ⟨r0, rows, l0, ls, h1, h2, h3, h4, h5⟩ := pbmText_lines px 0 hb
  refine ⟨⟨hw, hh, hlen⟩, hr, r0 :: rows, l0 :: ls, h1, h2, ?_, ?_⟩
  · intro l hl
    rcases List.mem_cons.1 hl with rfl | hl
    · omega
    · have := h4 l hl
      omega
  · unfold pbmText
    rw [h5]
    have e : "P1".toList = ['P', '1'] := rfl
    rw [e]
    simp only [joinLines, itoa_eq]
    simp

/-- The hypotheses hold for a folder with two classes. -/
example : HoldsImages (PbmFile 2 2) [⟨"a".toList, true, [pbmText [0, 1, 1, 0] 2 2]⟩, ⟨"b".toList, true, [pbmText [1, 1, 1, 1] 2 2, pbmText [0, 0, 0, 0] 2 2]⟩]
    [[[0, 1, 1, 0]], [[1, 1, 1, 1], [0, 0, 0, 0]]] ∧
    (∀ d ∈ classDirs [⟨"a".toList, true, [pbmText [0, 1, 1, 0] 2 2]⟩, ⟨"b".toList, true, [pbmText [1, 1, 1, 1] 2 2, pbmText [0, 0, 0, 0] 2 2]⟩], ∀ f ∈ d.files, f.length ≤ 32750) := by
  have hr : Int64Range 2 := ⟨by norm_num, by norm_num⟩
  refine ⟨?_, ?_⟩
  · refine List.Forall₂.cons (List.Forall₂.cons ?_ List.Forall₂.nil) (List.Forall₂.cons (List.Forall₂.cons ?_ (List.Forall₂.cons ?_ List.Forall₂.nil)) List.Forall₂.nil) <;>
      exact C88_written_image (by norm_num) (by norm_num) (by norm_num) ⟨hr, hr⟩ (by simp)
  · have : (classDirs [⟨"a".toList, true, [pbmText [0, 1, 1, 0] 2 2]⟩, ⟨"b".toList, true, [pbmText [1, 1, 1, 1] 2 2, pbmText [0, 0, 0, 0] 2 2]⟩]).all
        (fun d => d.files.all fun f => decide (f.length ≤ 32750)) = true := by decide +kernel
    intro d hd f hf
    simpa using List.all_eq_true.1 (List.all_eq_true.1 this d hd) f hf

end Gospn
