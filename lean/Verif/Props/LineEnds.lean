/-
C123: line ends do not matter to the readers of text files.
-/
import Verif.Model.Arff
import Verif.Proofs.Text
import Verif.Props.Folder

namespace Gospn
open Spec

/-- The text has the given lines. Each is ended by a newline or by a carriage return and a newline; the last one may have no newline. -/
inductive Spec.TextOf : List Str → Str → Prop
  | nil : TextOf [] []
  | unix {ls : List Str} {t : Str} (l : Str) (h : TextOf ls t) : TextOf (l :: ls) (l ++ '\n' :: t)
  | dos {ls : List Str} {t : Str} (l : Str) (h : TextOf ls t) : TextOf (l :: ls) (l ++ '\r' :: '\n' :: t)
  | last (l : Str) (h : l ≠ []) : TextOf [l] l

/-- Lines without line ends in them, which with their line ends fit into the buffer of the scanner. -/
def Spec.PlainLines (ls : List Str) : Prop := ∀ l ∈ ls, '\n' ∉ l ∧ '\r' ∉ l ∧ l.length < 65535

/-- Two texts with the same lines. -/
def Spec.SameLines (s t : Str) : Prop := ∃ ls, PlainLines ls ∧ TextOf ls s ∧ TextOf ls t

theorem splitLast_cons {a : Str} {l : List Str} (h : l ≠ []) : (if (a :: l).getLast? = some [] then (a :: l).dropLast else a :: l) = a :: (if l.getLast? = some [] then l.dropLast else l) := by
  rw [List.getLast?_cons, List.getLast?_eq_getLast_of_ne_nil h]
  simp only [Option.getD_some]
  split
  · rw [List.dropLast_cons_of_ne_nil h]
  · rfl

theorem scanLines_textOf {ls : List Str} {t : Str} (h : TextOf ls t) (hp : PlainLines ls) : scanLines t = ls := by
  have hnl : ∀ {l : Str}, '\n' ∉ l → ∀ c ∈ l, decide (c = '\n') = false := by
    intro l hl c hc
    simp only [decide_eq_false_iff_not]
    rintro rfl
    exact hl hc
  induction h with
  | nil => rfl
  | @unix ls t l h ih =>
    obtain ⟨h1, h2, h3⟩ := hp l (by simp)
    have ih := ih fun x hx => hp x (by simp [hx])
    unfold scanLines at ih ⊢
    simp only at ih ⊢
    rw [splitAt1_append (hnl h1) (by simp), splitLast_cons (splitAt1_ne_nil _ _), List.takeWhile_cons_of_pos (by simp; omega), List.map_cons, ih]
    congr 1
    unfold dropCR
    rw [if_neg fun e => h2 (List.mem_of_getLast? e)]
  | @dos ls t l h ih =>
    obtain ⟨h1, h2, h3⟩ := hp l (by simp)
    have ih := ih fun x hx => hp x (by simp [hx])
    unfold scanLines at ih ⊢
    simp only at ih ⊢
    rw [show l ++ '\r' :: '\n' :: t = (l ++ ['\r']) ++ '\n' :: t by simp]
    rw [splitAt1_append (hnl (by simp [h1])) (by simp), splitLast_cons (splitAt1_ne_nil _ _), List.takeWhile_cons_of_pos (by simp; omega), List.map_cons, ih]
    congr 1
    unfold dropCR
    simp
  | last l h =>
    obtain ⟨h1, h2, h3⟩ := hp l (by simp)
    unfold scanLines
    simp only
    rw [splitAt1_self (hnl h1)]
    rw [if_neg (by simpa using h), List.takeWhile_cons_of_pos (by simp; omega)]
    unfold dropCR
    simp only [List.takeWhile_nil, List.map_cons, List.map_nil]
    rw [if_neg fun e => h2 (List.mem_of_getLast? e)]

theorem sameLines_scan {s t : Str} (h : SameLines s t) : scanLines s = scanLines t := by
  obtain ⟨ls, h1, h2, h3⟩ := h
  rw [scanLines_textOf h2 h1, scanLines_textOf h3 h1]

/-- C123: the readers of data files give the same for texts with the same lines. -/
theorem C123_readers {F : Type} [GoFloat F] {s t : Str} (h : SameLines s t) :
    parseData s = parseData t ∧ parseDataNL s = parseDataNL t ∧ parseEvidence s = parseEvidence t ∧ parseArff s = parseArff t ∧ arffToData s = arffToData t ∧
    ∀ (p : F) (draws : List Nat), parsePartitionedData s p draws = parsePartitionedData t p draws := by
  have e := sameLines_scan h
  have e1 : parseData s = parseData t := by unfold parseData; rw [e]
  refine ⟨e1, ?_, ?_, ?_, ?_, fun p draws => ?_⟩
  · unfold parseDataNL; rw [e]
  · unfold parseEvidence; rw [e]
  · unfold parseArff; rw [e]
  · unfold arffToData; rw [e]
  · unfold parsePartitionedData; rw [e1]

/-- A folder with other texts in its files. -/
def Spec.withFiles (g : Str → Str) (sub : List DirEntry) : List DirEntry := sub.map fun e => { e with files := e.files.map g }

theorem classDirs_withFiles (g : Str → Str) (sub : List DirEntry) : classDirs (withFiles g sub) = withFiles g (classDirs sub) := by
  unfold classDirs withFiles
  rw [List.filter_map]
  rfl

theorem labelledFiles_withFiles (g : Str → Str) (dirs : List DirEntry) : labelledFiles (withFiles g dirs) = (labelledFiles dirs).map fun x => (g x.1, x.2) := by
  unfold labelledFiles withFiles
  rw [List.zipIdx_map, List.flatMap_map, List.map_flatMap]
  apply List.flatMap_congr
  intro x _
  simp

theorem startLabels_withFiles (g : Str → Str) (dirs : List DirEntry) : startLabels (withFiles g dirs) = startLabels dirs := by
  unfold startLabels withFiles
  rw [List.zipIdx_map, List.map_map]
  apply List.map_congr_left
  intro x _
  simp

theorem mem_labelledFiles {dirs : List DirEntry} {x : Str × Nat} (h : x ∈ labelledFiles dirs) : ∃ d ∈ dirs, x.1 ∈ d.files := by
  unfold labelledFiles at h
  rw [List.mem_flatMap] at h
  obtain ⟨d, hd, hx⟩ := h
  obtain ⟨f, hf, rfl⟩ := List.mem_map.1 hx
  exact ⟨d.1, (List.mem_zipIdx' hd).2 ▸ List.getElem_mem _, hf⟩

/-- C123: the functions that compile folders of images give the same for folders whose files have the same lines. -/
theorem C123_folders (sub : List DirEntry) (g : Str → Str) (hg : ∀ e ∈ sub, ∀ f ∈ e.files, SameLines f (g f)) :
    pgmFToData (withFiles g sub) = pgmFToData sub ∧ pgmFToEvidence (withFiles g sub) = pgmFToEvidence sub ∧
    pbmFToData (withFiles g sub) = pbmFToData sub ∧ pbmFToEvidence (withFiles g sub) = pbmFToEvidence sub := by
  have hlines : ∀ x ∈ labelledFiles (classDirs sub), scanLines (g x.1) = scanLines x.1 := by
    intro x hx
    obtain ⟨d, hd, hx⟩ := mem_labelledFiles hx
    exact (sameLines_scan (hg d (List.mem_of_mem_filter hd) _ hx)).symm
  have hlen : (withFiles g (classDirs sub)).length = (classDirs sub).length := by simp [withFiles]
  have hbody : ∀ (body : Str → Nat → Str), (∀ s t n, scanLines s = scanLines t → body s n = body t n) →
      (labelledFiles (withFiles g (classDirs sub))).flatMap (fun f => body f.1 f.2) = (labelledFiles (classDirs sub)).flatMap (fun f => body f.1 f.2) := by
    intro body hb
    rw [labelledFiles_withFiles, List.flatMap_map]
    apply List.flatMap_congr
    intro x hx
    exact hb _ _ _ (hlines x hx)
  have hhead : (labelledFiles (withFiles g (classDirs sub)))[0]?.map (fun x => scanLines x.1) = (labelledFiles (classDirs sub))[0]?.map (fun x => scanLines x.1) := by
    rw [labelledFiles_withFiles, List.getElem?_map, Option.map_map]
    cases h : (labelledFiles (classDirs sub))[0]? with
    | none => rfl
    | some x => exact congrArg some (hlines x (List.mem_of_getElem? h))
  have hhead2 : ∀ {α : Type} (a b : Str × Nat → α), (∀ s t, scanLines s.1 = scanLines t.1 → a s = b t) →
      (labelledFiles (withFiles g (classDirs sub)))[0]?.map a = (labelledFiles (classDirs sub))[0]?.map b := by
    intro α a b hab
    revert hhead
    cases h1 : (labelledFiles (withFiles g (classDirs sub)))[0]? <;> cases h2 : (labelledFiles (classDirs sub))[0]? <;> intro hh
    · rfl
    · cases hh
    · cases hh
    · simp only [Option.map_some, Option.some.injEq] at hh ⊢
      exact hab _ _ hh
  refine ⟨?_, ?_, ?_, ?_⟩
  · unfold pgmFToData
    rw [classDirs_eq, classDirs_eq, classDirs_withFiles, Option.bind_some, Option.bind_some]
    refine hhead2 _ _ fun s t e => ?_
    have e1 : pgmHeader s.1 = pgmHeader t.1 := by unfold pgmHeader; rw [e]
    simp only [e1, hlen]
    rw [hbody (fun s n => pgmBody s ++ itoa n ++ ['\n']) fun s t n e => by unfold pgmBody; rw [e]]
  · unfold pgmFToEvidence
    rw [classDirs_eq, classDirs_eq, classDirs_withFiles, Option.bind_some, Option.bind_some]
    refine hhead2 _ _ fun s t e => ?_
    have e1 : pgmHeader s.1 = pgmHeader t.1 := by unfold pgmHeader; rw [e]
    simp only [e1, startLabels_withFiles]
    rw [hbody (fun s _ => pgmEvidenceBody s ++ ['\n']) fun s t n e => by unfold pgmEvidenceBody; rw [e]]
  · unfold pbmFToData
    rw [classDirs_eq, classDirs_eq, classDirs_withFiles, Option.bind_some, Option.bind_some]
    refine hhead2 _ _ fun s t e => ?_
    simp only [e, hlen]
    rw [hbody (fun s n => pbmBody s ++ itoa n ++ ['\n']) fun s t n e => by unfold pbmBody; rw [e]]
  · unfold pbmFToEvidence
    rw [classDirs_eq, classDirs_eq, classDirs_withFiles, Option.bind_some, Option.bind_some]
    refine hhead2 _ _ fun s t e => ?_
    simp only [e, startLabels_withFiles]
    rw [hbody (fun s _ => pbmBody s ++ ['\n']) fun s t n e => by unfold pbmBody; rw [e]]

/-- Two lines, with the two kinds of line ends and without the last one. -/
example : SameLines "var 0 2\r\n1\r\n".toList "var 0 2\n1".toList := by
  refine ⟨["var 0 2".toList, "1".toList], ?_, .dos "var 0 2".toList (.dos "1".toList .nil), .unix "var 0 2".toList (.last "1".toList (by simp))⟩
  intro l hl
  simp only [List.mem_cons, List.not_mem_nil, or_false] at hl
  rcases hl with rfl | rfl <;> decide

/-- The limit is sharp: of a line of 65535 characters the scanner delivers nothing if a carriage return ends it. -/
theorem C123_limit (l : Str) (hl : l.length = 65535) (hn : '\n' ∉ l ∧ '\r' ∉ l) (ls : List Str) : scanLines (l ++ '\n' :: unlines ls) ≠ [] ∧ scanLines (l ++ '\r' :: '\n' :: unlines ls) = [] := by
  have hnl : ∀ {l : Str}, '\n' ∉ l → ∀ c ∈ l, decide (c = '\n') = false := by
    intro l hl c hc
    simp only [decide_eq_false_iff_not]
    rintro rfl
    exact hl hc
  constructor
  · unfold scanLines
    simp only
    rw [splitAt1_append (hnl hn.1) (by simp), splitLast_cons (splitAt1_ne_nil _ _), List.takeWhile_cons_of_pos (by simp; omega)]
    simp
  · unfold scanLines
    simp only
    rw [show l ++ '\r' :: '\n' :: unlines ls = (l ++ ['\r']) ++ '\n' :: unlines ls by simp]
    rw [splitAt1_append (hnl (by simp [hn.1])) (by simp), splitLast_cons (splitAt1_ne_nil _ _), List.takeWhile_cons_of_neg (by simp; omega)]
    rfl

/-- C86: the maximum of a first image that ends after its second line is returned as -1, and the pixels are declared as variables without values. -/
theorem C86_no_maximum {sub : List DirEntry} {f0 : Str × Nat} {fs : List (Str × Nat)} (h : labelledFiles (classDirs sub) = f0 :: fs) {a b : Str} (hp : PlainLines [a, b]) (ht : TextOf [a, b] f0.1) :
    ∃ text rest w k, pgmFToData sub = some (text, w, k, -1) ∧ text = (List.range (w * k).toNat).flatMap (fun (i : Nat) => declText ((i : Int), 0)) ++ rest := by
  unfold pgmFToData
  rw [classDirs_eq, Option.bind_some]
  simp only [h, List.getElem?_cons_zero, Option.map_some]
  have hm : (pgmHeader f0.1).2.2 = -1 := by
    unfold pgmHeader
    rw [scanLines_textOf ht hp]
    rfl
  refine ⟨_, declText ((pgmHeader f0.1).1 * (pgmHeader f0.1).2.1, (classDirs sub).length) ++ (f0 :: fs).flatMap (fun f => pgmBody f.1 ++ itoa f.2 ++ ['\n']), (pgmHeader f0.1).1, (pgmHeader f0.1).2.1, by rw [← hm], ?_⟩
  rw [hm, pgmDecls, List.flatMap_map, List.append_assoc]
  rfl

example : PlainLines ["P2".toList, "1 1".toList] ∧ TextOf ["P2".toList, "1 1".toList] "P2\n1 1\n".toList := by
  refine ⟨?_, .unix "P2".toList (.unix "1 1".toList .nil)⟩
  intro l hl
  simp only [List.mem_cons, List.not_mem_nil, or_false] at hl
  rcases hl with rfl | rfl <;> decide

end Gospn
