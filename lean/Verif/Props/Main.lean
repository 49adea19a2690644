import Verif.Model.Main
import Verif.Props.Folder
import Verif.Props.ImgRun
/-!
Property C130: the command line.
-/
set_option linter.unusedSectionVars false
set_option linter.unusedSimpArgs false
namespace Gospn
open Spec
variable {ι F : Type}

/-- The file that a rooted path names: the names on the way from the root, without regard to repeated slashes, `.` and `..` (links aside). -/
def Spec.NamesFile (path : Str) (names : List Str) : Prop := cleanSegs path = names

/-- A name of a file or a folder. -/
def Spec.PlainName (s : Str) : Prop := s ≠ [] ∧ s ≠ ['.'] ∧ s ≠ ['.', '.'] ∧ '/' ∉ s

theorem pathSegs_ne (s : Str) : pathSegs s ≠ [] := by
  cases s with
  | nil => simp [pathSegs]
  | cons c s =>
    unfold pathSegs
    split
    · simp
    · split <;> simp

theorem pathSegs_cons (c : Char) (s : Str) : pathSegs (c :: s) = if c = '/' then [] :: pathSegs s else match pathSegs s with
    | [] => [[c]]
    | h :: t => (c :: h) :: t := rfl

theorem pathSegs_append (a b : Str) : pathSegs (a ++ '/' :: b) = pathSegs a ++ pathSegs b := by
  induction a with
  | nil => simp [pathSegs]
  | cons c a ih =>
    rw [List.cons_append, pathSegs_cons, pathSegs_cons]
    by_cases hc : c = '/'
    · rw [if_pos hc, if_pos hc, ih]
      rfl
    · rw [if_neg hc, if_neg hc, ih]
      cases h : pathSegs a with
      | nil => exact absurd h (pathSegs_ne a)
      | cons h t => rfl

theorem pathSegs_plain {s : Str} (h : '/' ∉ s) : pathSegs s = [s] := by
  induction s with
  | nil => rfl
  | cons c s ih =>
    unfold pathSegs
    rw [if_neg (fun hc => h (by simp [hc])), ih fun hs => h (by simp [hs])]

theorem pathSegs_no_slash (p : Str) : ∀ s ∈ pathSegs p, '/' ∉ s := by
  induction p with
  | nil => simp [pathSegs]
  | cons c p ih =>
    unfold pathSegs
    split
    · intro s hs
      rcases List.mem_cons.1 hs with rfl | hs
      · simp
      · exact ih s hs
    · rename_i hc
      cases h : pathSegs p with
      | nil => exact absurd h (pathSegs_ne p)
      | cons x t =>
        rw [h] at ih
        intro s hs
        rcases List.mem_cons.1 hs with rfl | hs
        · have := ih x (by simp)
          simp [this, Ne.symm hc]
        · exact ih s (by simp [hs])

theorem cleanSegs_append (a b : Str) : cleanSegs (a ++ '/' :: b) = (pathSegs b).foldl cleanSeg (cleanSegs a) := by
  unfold cleanSegs
  rw [pathSegs_append, List.foldl_append]

theorem foldl_clean_plain : ∀ (l kept : List Str), (∀ s ∈ l, PlainName s) → l.foldl cleanSeg kept = kept ++ l := by
  intro l
  induction l with
  | nil => intro kept _; simp
  | cons s l ih =>
    intro kept h
    obtain ⟨h1, h2, h3, _⟩ := h s (by simp)
    rw [List.foldl_cons, ih _ fun x hx => h x (by simp [hx])]
    have : cleanSeg kept s = kept ++ [s] := by
      unfold cleanSeg
      rw [if_neg (by tauto), if_neg h3]
    rw [this]
    simp

theorem cleanSegs_plain (p : Str) : ∀ s ∈ cleanSegs p, PlainName s := by
  unfold cleanSegs
  have key : ∀ (l kept : List Str), (∀ s ∈ l, '/' ∉ s) → (∀ s ∈ kept, PlainName s) → ∀ s ∈ l.foldl cleanSeg kept, PlainName s := by
    intro l
    induction l with
    | nil => intro kept _ hk; exact hk
    | cons x l ih =>
      intro kept hl hk
      refine ih _ (fun s hs => hl s (by simp [hs])) ?_
      intro s hs
      unfold cleanSeg at hs
      split at hs
      · exact hk s hs
      · split at hs
        · exact hk s (List.mem_of_mem_dropLast hs)
        · rcases List.mem_append.1 hs with hs | hs
          · exact hk s hs
          · obtain rfl := List.mem_singleton.1 hs
            exact ⟨by tauto, by tauto, by tauto, hl _ (by simp)⟩
  exact key _ [] (pathSegs_no_slash p) (by simp)

theorem cleanSegs_render (l : List Str) (h : ∀ s ∈ l, PlainName s) : cleanSegs (renderPath l) = l := by
  have key : ∀ l : List Str, (∀ s ∈ l, PlainName s) → l ≠ [] → pathSegs (renderPath l) = [] :: l := by
    intro l
    induction l with
    | nil => intro _ h; exact absurd rfl h
    | cons s t ih =>
      intro h _
      have hs := h s (by simp)
      cases t with
      | nil =>
        have := pathSegs_append [] s
        simp only [List.nil_append] at this
        simp only [renderPath]
        rw [this, pathSegs_plain hs.2.2.2]
        rfl
      | cons x t =>
        have h1 := ih (fun y hy => h y (by simp [hy])) (by simp)
        have h2 : ∃ r, renderPath (x :: t) = '/' :: r := by
          cases t <;> exact ⟨_, rfl⟩
        obtain ⟨r, hr⟩ := h2
        rw [hr] at h1
        have h3 : pathSegs r = x :: t := by
          have := pathSegs_append [] r
          simp only [List.nil_append] at this
          rw [this] at h1
          simpa [pathSegs] using h1
        show pathSegs ('/' :: (s ++ renderPath (x :: t))) = _
        rw [hr]
        have := pathSegs_append [] (s ++ '/' :: r)
        simp only [List.nil_append] at this
        rw [this, pathSegs_append, pathSegs_plain hs.2.2.2, h3]
        rfl
  cases l with
  | nil => decide
  | cons s t =>
    unfold cleanSegs
    rw [key _ h (by simp), List.foldl_cons]
    have : cleanSeg [] [] = [] := by decide
    rw [this, foldl_clean_plain _ _ h]
    simp

theorem cleanSegs_abs (cwd p : Str) : ∀ q, q = (if p.head? = some '/' then p else cwd ++ '/' :: p) → cleanSegs (pathAbs cwd p) = cleanSegs q := by
  rintro q rfl
  unfold pathAbs
  split <;> exact cleanSegs_render _ (cleanSegs_plain _)

theorem renderPath_head (l : List Str) : (renderPath l).head? = some '/' := by
  cases l with
  | nil => rfl
  | cons s t => cases t <;> rfl

theorem pathAbs_head (cwd p : Str) : (pathAbs cwd p).head? = some '/' := by
  unfold pathAbs
  split <;> exact renderPath_head _

theorem pathAbs_abs (cwd p : Str) : pathAbs cwd (pathAbs cwd p) = pathAbs cwd p := by
  have h := pathAbs_head cwd p
  conv_lhs => unfold pathAbs
  rw [show (pathAbs cwd p).head? = some '/' from h] at *
  unfold pathAbs
  split <;> simp only [renderPath_head, if_true] <;> rw [cleanSegs_render _ (cleanSegs_plain _)]

/-- The file of a data set, from the working directory on. -/
def Spec.dataFile (cwd dataset : Str) : List Str := (pathSegs dataset).foldl cleanSeg (cleanSegs cwd ++ ["data".toList]) ++ ["compiled".toList, "all.data".toList]

theorem reads_file (cwd dataset : Str) : NamesFile (allData (getDataPath cwd dataset)) (dataFile cwd dataset) := by
  unfold NamesFile allData getDataPath
  have e : ∀ x : Str, x ++ "/all.data".toList = x ++ '/' :: "all.data".toList := fun x => rfl
  rw [e, cleanSegs_append, cleanSegs_abs cwd _ _ rfl]
  have hh : ("data/".toList ++ dataset ++ "/compiled".toList).head? = some 'd' := rfl
  rw [hh, if_neg (by decide)]
  have e2 : "data/".toList ++ dataset ++ "/compiled".toList = "data".toList ++ '/' :: (dataset ++ '/' :: "compiled".toList) := by
    rw [show "data/".toList = "data".toList ++ ['/'] from rfl, show "/compiled".toList = '/' :: "compiled".toList from rfl]
    simp
  rw [e2, cleanSegs_append, pathSegs_append, pathSegs_append, pathSegs_plain (s := "data".toList) (by decide), pathSegs_plain (s := "compiled".toList) (by decide), pathSegs_plain (s := "all.data".toList) (by decide)]
  simp only [List.foldl_append, List.foldl_cons, List.foldl_nil]
  have c : ∀ kept (s : Str), PlainName s → cleanSeg kept s = kept ++ [s] := by
    intro kept s hs
    have := foldl_clean_plain [s] kept (by simpa using hs)
    simpa using this
  have p1 : PlainName "data".toList := by unfold PlainName; decide
  have p2 : PlainName "compiled".toList := by unfold PlainName; decide
  have p3 : PlainName "all.data".toList := by unfold PlainName; decide
  rw [c _ _ p1, c _ _ p2, c _ _ p3]
  unfold dataFile
  simp

theorem writes_file (cwd dataset : Str) : NamesFile (compiledFile cwd (convertDir cwd dataset) "all.data".toList) (dataFile cwd dataset) := by
  unfold NamesFile compiledFile convertDir
  rw [pathAbs_abs]
  have e : ∀ x : Str, x ++ "/compiled".toList ++ "/".toList ++ "all.data".toList = x ++ '/' :: ("compiled".toList ++ '/' :: "all.data".toList) := by
    intro x
    rw [show "/compiled".toList = '/' :: "compiled".toList from rfl, show "/".toList = ['/'] from rfl]
    simp
  rw [e, cleanSegs_append, cleanSegs_abs cwd _ _ rfl]
  have hh : ("data/".toList ++ dataset ++ "/".toList).head? = some 'd' := rfl
  rw [hh, if_neg (by decide)]
  have e2 : "data/".toList ++ dataset ++ "/".toList = "data".toList ++ '/' :: (dataset ++ '/' :: []) := by
    rw [show "data/".toList = "data".toList ++ ['/'] from rfl, show "/".toList = ['/'] from rfl]
    simp
  rw [e2, cleanSegs_append, pathSegs_append, pathSegs_append, pathSegs_append, pathSegs_plain (s := "data".toList) (by decide), pathSegs_plain (s := "compiled".toList) (by decide),
    pathSegs_plain (s := "all.data".toList) (by decide), pathSegs_plain (s := ([] : Str)) (by decide)]
  simp only [List.foldl_append, List.foldl_cons, List.foldl_nil]
  have c : ∀ kept (s : Str), PlainName s → cleanSeg kept s = kept ++ [s] := by
    intro kept s hs
    have := foldl_clean_plain [s] kept (by simpa using hs)
    simpa using this
  have c0 : ∀ kept, cleanSeg kept [] = kept := fun kept => by simp [cleanSeg]
  have p1 : PlainName "data".toList := by unfold PlainName; decide
  have p2 : PlainName "compiled".toList := by unfold PlainName; decide
  have p3 : PlainName "all.data".toList := by unfold PlainName; decide
  rw [c0, c _ _ p1, c _ _ p2, c _ _ p3]
  unfold dataFile
  simp

section
variable [GoFloat F]

/-- **C130**: with a proportion and a number of iterations that are accepted, `-mode=data` writes the file that `-mode=cmpl` and `-mode=class` read for the same data set, whatever the working directory and the name of the data
set are. -/
theorem C130_same_file_partial (cwd : Str) (f g : Flags F) (hd : f.dataset = g.dataset) (w r : Str) (hm : g.mode ≠ "test".toList) (hw : (mainJob cwd f).writes cwd = some w) (hr : (mainJob cwd g).reads cwd = some r) :
    NamesFile w (dataFile cwd f.dataset) ∧ NamesFile r (dataFile cwd f.dataset) := by
  constructor
  · unfold mainJob at hw
    split at hw
    · cases hw
    split at hw
    · cases hw
    split at hw
    · simp only [MainJob.writes, Option.some.injEq] at hw
      subst hw
      exact writes_file cwd f.dataset
    split at hw
    · cases hw
    split at hw
    · cases hw
    split at hw <;> cases hw
  · rw [hd]
    unfold mainJob at hr
    split at hr
    · cases hr
    split at hr
    · cases hr
    split at hr
    · cases hr
    split at hr
    · simp only [MainJob.reads, Option.some.injEq] at hr
      subst hr
      exact reads_file cwd g.dataset
    split at hr
    · simp only [MainJob.reads, Option.some.injEq] at hr
      subst hr
      exact reads_file cwd g.dataset
    cases hr

/-- C130: for an ordinary name it is `data/NAME/compiled/all.data` below the working directory. -/
theorem C130_file (cwd dataset : Str) (h : PlainName dataset) : dataFile cwd dataset = cleanSegs cwd ++ ["data".toList, dataset, "compiled".toList, "all.data".toList] := by
  unfold dataFile
  rw [pathSegs_plain h.2.2.2, foldl_clean_plain _ _ (by simpa using h)]
  simp

/-- C130: the three modes run the job they name, with the flags as they are. -/
theorem C130_jobs (cwd : Str) (f : Flags F) (hp : (GoFloat.eq f.p (GoFloat.ofInt 0) || GoFloat.lt f.p (GoFloat.ofInt 0) || GoFloat.eq f.p (GoFloat.ofInt 1)) = false) (hi : 0 < f.iterations) :
    (f.mode = "cmpl".toList → ∃ file, mainJob cwd f = .complete ⟨f.clusters, f.pval, f.eps, f.mp⟩ file f.concurrents) ∧
    (f.mode = "class".toList → mainJob cwd f = .classify ⟨f.clusters, f.pval, f.eps, f.mp⟩ f.dataset f.p f.rseed f.clusters f.iterations) ∧
    (f.mode = "data".toList → ∃ dir, mainJob cwd f = .convert dir "all.data".toList) := by
  unfold mainJob
  rw [hp]
  simp only [Bool.false_eq_true, if_false, if_neg (not_le.2 hi)]
  refine ⟨fun h => ?_, fun h => ?_, fun h => ?_⟩
  · rw [h, if_neg (by decide), if_pos rfl]
    exact ⟨_, rfl⟩
  · rw [h, if_neg (by decide), if_neg (by decide), if_pos rfl]
  · rw [h, if_pos rfl]
    exact ⟨_, rfl⟩

/-- C130 fails for `-mode=test`: the data set asked for makes no difference, nor do the other flags, but for `p` and `iterations`, which must be acceptable. -/
theorem C130_test_refuted (cwd cwd' : Str) (f g : Flags F) (hf : f.mode = "test".toList) (hg : g.mode = "test".toList) (hp : f.p = g.p) (hi : f.iterations = g.iterations) : mainJob cwd f = mainJob cwd' g := by
  unfold mainJob
  simp only [hf, hg, hp, hi]
  split
  · rfl
  split
  · rfl
  have h1 : ¬ "test".toList = "data".toList := by decide
  have h2 : ¬ "test".toList = "cmpl".toList := by decide
  have h3 : ¬ "test".toList = "class".toList := by decide
  simp only [if_neg h1, if_neg h2, if_neg h3]

end

/-- C130, part: numbers that are not above 0, and 1, are refused as proportions, and so are numbers of iterations below 1; what is between 0 and 1 is accepted. -/
theorem C130_accepts_partial (cwd : Str) (f : Flags XR) (r : ℝ) (hr : f.p = .fin r) :
    (mainJob cwd f = .rejectP ↔ r ≤ 0 ∨ r = 1) ∧ (0 < r ∧ r < 1 → (mainJob cwd f = .rejectIterations ↔ f.iterations ≤ 0)) := by
  have hc : (GoFloat.eq f.p (GoFloat.ofInt 0) || GoFloat.lt f.p (GoFloat.ofInt 0) || GoFloat.eq f.p (GoFloat.ofInt 1)) = decide (r ≤ 0 ∨ r = 1) := by
    rw [hr]
    simp only [XR.g_eq, XR.g_lt, XR.g_ofInt, XR.eq, XR.lt, Int.cast_zero, Int.cast_one]
    rw [Bool.eq_iff_iff]
    simp only [Bool.or_eq_true, decide_eq_true_eq]
    rw [le_iff_lt_or_eq]
    tauto
  have hrest : ∀ j, (if f.iterations ≤ 0 then MainJob.rejectIterations
      else if f.mode = "data".toList then .convert (convertDir cwd f.dataset) "all.data".toList
      else if f.mode = "cmpl".toList then .complete ⟨f.clusters, f.pval, f.eps, f.mp⟩ (allData (getDataPath cwd f.dataset)) f.concurrents
      else if f.mode = "class".toList then .classify ⟨f.clusters, f.pval, f.eps, f.mp⟩ f.dataset f.p f.rseed f.clusters f.iterations
      else if f.mode = "test".toList then .test "data/digits_x/compiled/all.data".toList
      else .unknown) = j → j ≠ .rejectP ∧ (j = .rejectIterations ↔ f.iterations ≤ 0) := by
    intro j hj
    subst hj
    by_cases hi : f.iterations ≤ 0
    · rw [if_pos hi]
      simp [hi]
    · rw [if_neg hi]
      split
      · simp [hi]
      split
      · simp [hi]
      split
      · simp [hi]
      split <;> simp [hi]
  unfold mainJob
  rw [hc]
  by_cases h : r ≤ 0 ∨ r = 1
  · simp only [h, decide_true, if_true]
    refine ⟨by simp, fun h' => ?_⟩
    rcases h with h | h
    · exact absurd h'.1 (not_lt.2 h)
    · exact absurd h (ne_of_lt h'.2)
  · simp only [h, decide_false, Bool.false_eq_true, if_false]
    have := hrest _ rfl
    exact ⟨⟨fun h' => absurd h' this.1, fun h' => absurd h' id⟩, fun _ => this.2⟩

section
variable [DecidableEq ι] [Fintype ι]

/-- **C130 is false** for proportions above 1: the command accepts every one of them, although it says that `p` must be in the range (0, 1), and the classification that it goes on to run panics, or else classifies nothing. -/
theorem C130_p_refuted (cwd : Str) (f : Flags XR) (r : ℝ) (hr : f.p = .fin r) (h1 : 1 < r) (hi : 0 < f.iterations) (hm : f.mode = "class".toList) :
    (mainJob cwd f = .classify ⟨f.clusters, f.pval, f.eps, f.mp⟩ f.dataset f.p f.rseed f.clusters f.iterations) ∧
    ∀ (lf : List (Int × Int) → List VarSet → Option (Net ι XR × ι)) (text : Str) (draws : Nat → List Nat) (c t : Nat),
      imgBatchClassify lf text f.p f.iterations draws = some (c, t) → c = 0 ∧ t = 0 := by
  have hp : (GoFloat.eq f.p (GoFloat.ofInt 0) || GoFloat.lt f.p (GoFloat.ofInt 0) || GoFloat.eq f.p (GoFloat.ofInt 1)) = false := by
    rw [hr]
    simp only [XR.g_eq, XR.g_lt, XR.g_ofInt, XR.eq, XR.lt, Int.cast_zero, Int.cast_one]
    have a1 : ¬ r = 0 := by linarith
    have a2 : ¬ r < 0 := by linarith
    have a3 : ¬ r = 1 := by linarith
    simp [a1, a2, a3]
  refine ⟨(C130_jobs cwd f hp hi).2.1 hm, ?_⟩
  intro lf text draws
  have one : ∀ d x, imgClassifyFile lf text f.p d = some x → x = (0, 0) := by
    intro d x hx
    unfold imgClassifyFile parsePartitionedData at hx
    cases hd : parseData text with
    | none => rw [hd] at hx; cases hx
    | some R =>
      rw [hd, Option.bind_some] at hx
      have hneg : GoFloat.toInt (GoFloat.mul (GoFloat.sub (GoFloat.ofInt 1) f.p) (GoFloat.ofInt (R.2.length : Nat)) : XR) ≤ 0 := by
        rw [hr]
        simp only [XR.g_toInt, XR.g_mul, XR.g_sub, XR.g_ofInt, XR.sub_fin, XR.mul_fin, XR.toInt, Int.cast_one, Int.cast_natCast]
        have : (1 - r) * (R.2.length : ℝ) ≤ 0 := mul_nonpos_of_nonpos_of_nonneg (by linarith) (Nat.cast_nonneg _)
        split
        · rename_i h0
          have : (1 - r) * (R.2.length : ℝ) = 0 := le_antisymm this h0
          rw [this]
          simp
        · exact Int.ceil_le.2 (by simpa using this)
      generalize GoFloat.toInt (GoFloat.mul (GoFloat.sub (GoFloat.ofInt 1) f.p) (GoFloat.ofInt (R.2.length : Nat)) : XR) = m at hneg hx
      unfold partitionParsed at hx
      by_cases hm0 : m < 0
      · rw [if_pos hm0] at hx
        cases hx
      · have : m = 0 := by omega
        subst this
        rw [if_neg (by omega)] at hx
        simp only [Int.toNat_zero, drawRows, Option.bind_some, List.mapM_nil] at hx
        unfold imgLearnClassify at hx
        simp only [Option.pure_def, Option.bind_some, List.map_nil] at hx
        cases hdel : deleteRows R.2 (([] : List Nat).mergeSort (fun a b => decide (a ≤ b))) with
        | none => rw [hdel] at hx; cases hx
        | some train =>
          rw [hdel] at hx
          simp only [Option.map_some, Option.bind_some] at hx
          rw [Option.bind_eq_some_iff] at hx
          obtain ⟨S, _, hx⟩ := hx
          rw [Option.bind_eq_some_iff] at hx
          obtain ⟨v, _, hx⟩ := hx
          rw [Option.map_eq_some_iff] at hx
          obtain ⟨y, hy, rfl⟩ := hx
          unfold imgClassify at hy
          simp only [List.zip_nil_left, List.foldlM_nil, Option.pure_def, Option.bind_some, List.all_nil, if_true, List.length_nil] at hy
          split at hy
          · cases hy
          · cases hy
            rfl
  have fold : ∀ (l : List Nat) (s x : Nat × Nat), l.foldlM (fun (s : Nat × Nat) i => (imgClassifyFile lf text f.p (draws i)).map fun r => (s.1 + r.1, s.2 + r.2)) s = some x → x = s := by
    intro l
    induction l with
    | nil => intro s x h; simpa using h.symm
    | cons i l ih =>
      intro s x h
      rw [List.foldlM_cons] at h
      cases hc : imgClassifyFile lf text f.p (draws i) with
      | none => rw [hc] at h; cases h
      | some y =>
        have := one _ _ hc
        subst this
        rw [hc] at h
        exact ih _ _ h
  intro c t h
  have := fold _ _ _ h
  simpa using this

/-- C130: the images that `-mode=data` finds in the folder of the data set are the ones `-mode=class` and `-mode=cmpl` work on. `fs` maps names of files to contents. -/
theorem C130_pipeline_partial {w h max : Int} {sub : List DirEntry} {imgs : List (List (List Int))} (H : HoldsImages (PgmFile w h max) sub imgs)
    (hne : classRows imgs ≠ []) (hwh : Int64Range (w * h)) (hmax : Int64Range (max + 1)) (hn : Int64Range imgs.length)
    (hshort : ∀ r ∈ classRows imgs, (tightLine r).length < 65536) (ord : List (Str × Nat) → List (Str × Nat)) (hord : ∀ l, (ord l).Perm l)
    (cwd : Str) (f g : Flags XR) (hd : f.dataset = g.dataset) (wr rd : Str) (hm : g.mode ≠ "test".toList) (hw : (mainJob cwd f).writes cwd = some wr) (hr : (mainJob cwd g).reads cwd = some rd)
    (fs : List Str → Option Str) :
    ∃ (text : Str) (rows : List (List Int)), bufferedPgmFToData ord sub = some (text, w, h, max) ∧ rows.Perm (classRows imgs) ∧
      ((Function.update fs (cleanSegs wr) (some text)) (cleanSegs rd)).bind parseData = some (pixelVars (w * h).toNat (max + 1) ++ [(w * h, (imgs.length : Int))], rows.map lineInstance) := by
  obtain ⟨text, rows, h1, h2, _, h4⟩ := C86_buffered_partial H hne hwh hmax hn hshort ord hord
  refine ⟨text, rows, h1, h2, ?_⟩
  obtain ⟨e1, e2⟩ := C130_same_file_partial cwd f g hd wr rd hm hw hr
  unfold NamesFile at e1 e2
  rw [e1, e2, Function.update_self]
  exact h4

end

/-- The flags with their defaults, but for the mode and the proportion. -/
noncomputable def demoFlags (mode : Str) (p : ℝ) : Flags XR := ⟨.fin p, -1, -1, 1, -1, "olivetti_3bit".toList, mode, 46, 56, 8, .fin (1 / 10000), .fin 4, 4⟩

/-- The hypotheses of `C130_same_file_partial` and the parts of `C130_pipeline_partial` that are about the flags. -/
example : ((mainJob "/home".toList (demoFlags "data".toList (7 / 10))).writes "/home".toList).isSome ∧ ((mainJob "/home".toList (demoFlags "class".toList (7 / 10))).reads "/home".toList).isSome ∧
    PlainName (demoFlags "class".toList (7 / 10)).dataset := by
  have hp : (GoFloat.eq (XR.fin (7 / 10)) (GoFloat.ofInt 0) || GoFloat.lt (XR.fin (7 / 10)) (GoFloat.ofInt 0) || GoFloat.eq (XR.fin (7 / 10)) (GoFloat.ofInt 1)) = false := by
    simp only [XR.g_eq, XR.g_lt, XR.g_ofInt, XR.eq, XR.lt, Int.cast_zero, Int.cast_one]
    norm_num
  refine ⟨?_, ?_, ?_⟩
  · obtain ⟨dir, h⟩ := (C130_jobs "/home".toList (demoFlags "data".toList (7 / 10)) hp (by simp [demoFlags])).2.2 rfl
    rw [h]
    rfl
  · have h := (C130_jobs "/home".toList (demoFlags "class".toList (7 / 10)) hp (by simp [demoFlags])).2.1 rfl
    rw [h]
    rfl
  · unfold PlainName demoFlags
    decide

/-- The hypotheses of `C130_p_refuted`. -/
example : (demoFlags "class".toList 2).p = .fin 2 ∧ (1 : ℝ) < 2 ∧ 0 < (demoFlags "class".toList 2).iterations ∧ (demoFlags "class".toList 2).mode = "class".toList :=
  ⟨rfl, by norm_num, by simp [demoFlags], rfl⟩

/-- C130: `-concurrents` is the number of jobs that run at once if it is positive, and the number of processors if not; so on a machine with processors there is always at least one job. -/
theorem C130_procs (ncpu concurrents : Int) (h : 0 < ncpu) :
    (0 < concurrents → complProcs ncpu concurrents = concurrents) ∧ (concurrents ≤ 0 → complProcs ncpu concurrents = ncpu) ∧ 0 < complProcs ncpu concurrents := by
  unfold complProcs
  refine ⟨fun h1 => if_neg (by omega), fun h1 => if_pos h1, ?_⟩
  split <;> omega

example : complProcs 4 0 = 4 ∧ complProcs 4 7 = 7 ∧ complProcs 4 (-1) = 4 := by decide

end Gospn
