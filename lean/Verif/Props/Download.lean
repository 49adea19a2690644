import Verif.Proofs.Download
import Verif.Props.Input
set_option linter.unusedSectionVars false
set_option linter.unusedSimpArgs false
/-
C121: what the functions that download data sets return, now and later.
-/
namespace Gospn
open Spec

/-- Where the data set `d` is published. -/
def Spec.published (d : Str) : Str := "https://raw.githubusercontent.com/RenatoGeh/datasets/master/".toList ++ d ++ "/compiled/all.data".toList

/-- The file that keeps the data set `d`. -/
def Spec.keptAt (cwd d : Str) : Str := cwd ++ "/.cache/data/".toList ++ d ++ ".data".toList

/-- Where a part of MNIST is published: `n` digits with `b` shades. -/
def Spec.mnistPublished (part : Str) (n b : Int) : Str :=
  "https://raw.githubusercontent.com/RenatoGeh/datasets/master/mnist/compiled/".toList ++ part ++ "_".toList ++ decimal b ++ "_".toList ++ decimal n ++ ".data".toList

/-- The file that keeps it. -/
def Spec.mnistKeptAt (cwd part : Str) (n b : Int) : Str := keptAt cwd ("mnist_".toList ++ part ++ "_".toList ++ decimal b ++ "_".toList ++ decimal n)

theorem keptAt_eq (cwd d : Str) : cwd ++ '/' :: (datasetPath ++ d ++ ".data".toList) = keptAt cwd d := by
  unfold keptAt datasetPath
  simp

theorem mnist_target (cwd u part : Str) (n b : Int) : targetFile cwd u (mnistPath part n b) = mnistKeptAt cwd part n b := by
  rw [mnistPath_eq, target_data, keptAt_eq, mnistKeptAt, itoa_eq, itoa_eq]
  simp [decimal]

theorem mnist_getPath (cwd part : Str) (n b : Int) : getPath cwd (mnistPath part n b) = mnistKeptAt cwd part n b := by
  rw [mnistPath_eq, getPath_data, keptAt_eq, mnistKeptAt, itoa_eq, itoa_eq]
  simp [decimal]

theorem mnist_url (part : Str) (n b : Int) : mnistURL part n b = mnistPublished part n b := by
  unfold mnistURL mnistName mnistPublished
  rw [itoa_eq, itoa_eq]
  simp [decimal]

/-- C121. DownloadFromURL changes no file but its target, and no existing file unless it is told to override. -/
theorem C121_frame (cwd : Str) (E : Env) (u p : Str) (override : Bool) (fs : Files) (f : Str) (h : f ≠ targetFile cwd u p ∨ override = false ∧ (fs f).isSome) :
    (download cwd E u p override fs).1 f = fs f := by
  rcases h with h | ⟨rfl, h⟩
  · unfold download
    simp only
    repeat' split
    all_goals simp [Files.put, h]
  · obtain ⟨t, ht⟩ := Option.isSome_iff_exists.1 h
    rw [ht]
    exact download_kept cwd E u p fs f t ht

example : ([] : Str) ≠ targetFile "/home".toList "http://x/y".toList "a.data".toList := by decide

/-- C121. When DownloadFromURL returns without error, the target is there; it is the whole document unless it was there before. -/
theorem C121_downloaded (cwd : Str) (E : Env) (u p : Str) (override : Bool) (fs : Files) (h : (download cwd E u p override fs).2 = .ok) :
    (override = false ∧ (fs (targetFile cwd u p)).isSome ∧ (download cwd E u p override fs).1 = fs) ∨
    ∃ t, E.fetch u = .body t true ∧ (download cwd E u p override fs).1 (targetFile cwd u p) = some t := by
  unfold download at h ⊢
  simp only at h ⊢
  split at h
  · cases h
  · split at h
    · rename_i h1 h2
      rw [Bool.and_eq_true] at h2
      left
      refine ⟨by simpa using h2.2, h2.1, ?_⟩
      rw [if_neg h1, if_pos (by rw [Bool.and_eq_true]; exact h2)]
    · split at h
      · cases h
      · rename_i h1 h2 h3
        rw [if_neg h1, if_neg h2, if_neg h3]
        cases hf : E.fetch u with
        | none => rw [hf] at h; cases h
        | redirect => rw [hf] at h; cases h
        | body t c =>
          rw [hf] at h
          cases c
          · cases h
          · exact Or.inr ⟨t, rfl, by simp [Files.put]⟩

/-- C121. A file, once there, is never changed by the functions that load data sets. -/
theorem C121_kept (cwd : Str) (calls : List DataCall) : ∀ (fs : Files) (f t : Str), fs f = some t → (calls.foldl (DataCall.after cwd) fs) f = some t := by
  induction calls with
  | nil => intro fs f t h; exact h
  | cons c calls ih =>
    intro fs f t h
    rw [List.foldl_cons]
    refine ih _ f t ?_
    cases c with
    | dataset E d =>
      show (loadDataset cwd E d fs).1 f = some t
      unfold loadDataset
      simp only
      split <;> exact download_kept _ _ _ _ _ _ _ h
    | mnist E E' n b =>
      show (pullMNIST cwd E E' n b fs).1 f = some t
      unfold pullMNIST
      simp only
      split
      · exact download_kept _ _ _ _ _ _ _ h
      · exact download_kept _ _ _ _ _ _ _ h
      · split <;> exact download_kept _ _ _ _ _ _ _ (download_kept _ _ _ _ _ _ _ h)

example : (fun _ => some ['x'] : Files) ['f'] = some ['x'] := rfl

/-- C121. With the file in the cache, a call returns what is in it, whatever the network does, and changes nothing. -/
theorem C121_cached (cwd : Str) (E : Env) (hE : E.statFails = false) (d t : Str) (fs : Files) (h : fs (keptAt cwd d) = some t) :
    loadDataset cwd E d fs = (fs, match parseData t with | none => .panic | some x => .data x) := by
  have hd : download cwd E (upstreamURL d) (fullPath d) false fs = (fs, .ok) := by
    unfold download fullPath
    simp only
    rw [target_data, keptAt_eq, hE, h]
    simp
  unfold loadDataset
  rw [hd]
  simp only [parseFile, fullPath]
  rw [getPath_data, keptAt_eq, h]
  rfl

example : (⟨false, true, fun _ => .none⟩ : Env).statFails = false ∧ (fun _ => some [] : Files) (keptAt [] "digits".toList) = some [] := ⟨rfl, rfl⟩

/-- What a call does when the file is not in the cache. -/
theorem load_absent (cwd : Str) (E : Env) (hE : E.statFails = false) (hc : E.creates = true) (d : Str) (fs : Files) (h : fs (keptAt cwd d) = none) :
    loadDataset cwd E d fs = match E.fetch (published d) with
      | .none => (fs.put (keptAt cwd d) [], .panic)
      | .redirect => (fs.put (keptAt cwd d) [], .nothing)
      | .body t c => (fs.put (keptAt cwd d) t, if c then (match parseData t with | none => .panic | some x => .data x) else .nothing) := by
  have hd : download cwd E (upstreamURL d) (fullPath d) false fs = match E.fetch (published d) with
      | .none => (fs.put (keptAt cwd d) [], .panic)
      | .redirect => (fs.put (keptAt cwd d) [], .error)
      | .body t c => (fs.put (keptAt cwd d) t, if c then .ok else .error) := by
    unfold download fullPath
    simp only
    rw [target_data, keptAt_eq, hE, h, hc]
    rfl
  unfold loadDataset
  rw [hd]
  cases E.fetch (published d) with
  | none => rfl
  | redirect => rfl
  | body t c =>
    cases c
    · rfl
    · simp only [if_true, parseFile, fullPath]
      rw [getPath_data, keptAt_eq]
      simp [Files.put]
      cases parseData t <;> rfl

/-- C121, for downloads that go well. If the data set is published as a data file and downloaded completely, the call returns the data set, and so does every later call, after any other calls of functions that load data
sets, whatever the network does then. -/
theorem C121_dataset_partial (cwd : Str) (E : Env) (hE : E.statFails = false) (hc : E.creates = true) (d : Str) (fs : Files) (h : fs (keptAt cwd d) = none) {decls : List (Int × Int)} {rows : List (List Int)}
    {lines : List Str} (hfile : DataFile decls rows lines) (hne : rows ≠ []) (hlen : ∀ r ∈ rows, decls.length ≤ r.length) (hshort : ∀ l ∈ decls.map declLine ++ lines, l.length < 65536)
    (hf : E.fetch (published d) = .body (dataText decls lines) true) :
    (loadDataset cwd E d fs).2 = .data (decls, rows.map fun r => lineInstance (r.take decls.length)) ∧
    ∀ (calls : List DataCall) (E' : Env), E'.statFails = false →
      (loadDataset cwd E' d (calls.foldl (DataCall.after cwd) (loadDataset cwd E d fs).1)).2 = .data (decls, rows.map fun r => lineInstance (r.take decls.length)) := by
  have hp := C84_parseData_partial hfile hne hlen hshort
  have hl := load_absent cwd E hE hc d fs h
  rw [hf] at hl
  simp only [if_true, hp] at hl
  rw [hl]
  refine ⟨rfl, fun calls E' hE' => ?_⟩
  rw [C121_cached cwd E' hE' d (dataText decls lines) _ (C121_kept cwd calls _ _ _ (by simp [Files.put])), hp]

/-- C121 is false if the network is down at the first call: the call panics and leaves an empty file, and from then on every call returns, as if it were the data set, no variables and one empty instance. -/
theorem C121_failed_refuted (cwd : Str) (E : Env) (hE : E.statFails = false) (hc : E.creates = true) (d : Str) (fs : Files) (h : fs (keptAt cwd d) = none) (hf : E.fetch (published d) = .none) :
    (loadDataset cwd E d fs).2 = .panic ∧ ∀ (calls : List DataCall) (E' : Env), E'.statFails = false →
      (loadDataset cwd E' d (calls.foldl (DataCall.after cwd) (loadDataset cwd E d fs).1)).2 = .data ([], [VarSet.empty]) := by
  have hl := load_absent cwd E hE hc d fs h
  rw [hf] at hl
  simp only at hl
  rw [hl]
  refine ⟨rfl, fun calls E' hE' => ?_⟩
  rw [C121_cached cwd E' hE' d [] _ (C121_kept cwd calls _ _ _ (by simp [Files.put])), parseData_nil]

example : (⟨false, true, fun _ => .none⟩ : Env).statFails = false ∧ (fun _ => none : Files) (keptAt [] "digits".toList) = none ∧ (⟨false, true, fun _ => .none⟩ : Env).fetch (published "digits".toList) = .none :=
  ⟨rfl, rfl, rfl⟩

/-- C121 is false if the server answers with an error: the status is not looked at, so a page such as `404: Not Found` is kept as the data set, which has no variables and one empty instance, at this call and for ever. -/
theorem C121_status_refuted (cwd : Str) (E : Env) (hE : E.statFails = false) (hc : E.creates = true) (d : Str) (fs : Files) (h : fs (keptAt cwd d) = none) {page : Str} (h1 : page ≠ [])
    (h2 : page.head? ≠ some 'v') (h3 : '\n' ∉ page ∧ '\r' ∉ page) (h4 : page.length < 65536) (hf : E.fetch (published d) = .body page true) :
    (loadDataset cwd E d fs).2 = .data ([], [VarSet.empty]) ∧ ∀ (calls : List DataCall) (E' : Env), E'.statFails = false →
      (loadDataset cwd E' d (calls.foldl (DataCall.after cwd) (loadDataset cwd E d fs).1)).2 = .data ([], [VarSet.empty]) := by
  have hp := parseData_page h1 h2 h3 h4
  have hl := load_absent cwd E hE hc d fs h
  rw [hf] at hl
  simp only [if_true, hp] at hl
  rw [hl]
  refine ⟨rfl, fun calls E' hE' => ?_⟩
  rw [C121_cached cwd E' hE' d page _ (C121_kept cwd calls _ _ _ (by simp [Files.put])), hp]

example : "404: Not Found".toList ≠ [] ∧ "404: Not Found".toList.head? ≠ some 'v' ∧ ('\n' ∉ "404: Not Found".toList ∧ '\r' ∉ "404: Not Found".toList) ∧ "404: Not Found".toList.length < 65536 := by decide

/-- C121 is false if the connection breaks after some of the rows: the call returns nothing, but every later call returns the first rows as if they were all. -/
theorem C121_cut_refuted (cwd : Str) (E : Env) (hE : E.statFails = false) (hc : E.creates = true) (d : Str) (fs : Files) (h : fs (keptAt cwd d) = none) {decls : List (Int × Int)} {rows : List (List Int)}
    {lines : List Str} (hfile : DataFile decls rows lines) (hlen : ∀ r ∈ rows, decls.length ≤ r.length) (hshort : ∀ l ∈ decls.map declLine ++ lines, l.length < 65536) (k : Nat) (hk : 0 < k) (hk' : k < rows.length)
    (hf : E.fetch (published d) = .body ((dataText decls lines).take (dataText decls (lines.take k)).length) false) :
    (loadDataset cwd E d fs).2 = .nothing ∧ ∀ (calls : List DataCall) (E' : Env), E'.statFails = false →
      ∃ D, (loadDataset cwd E' d (calls.foldl (DataCall.after cwd) (loadDataset cwd E d fs).1)).2 = .data (decls, D) ∧ D = (rows.map fun r => lineInstance (r.take decls.length)).take k ∧ D.length < rows.length := by
  have hcut : (dataText decls lines).take (dataText decls (lines.take k)).length = dataText decls (lines.take k) := by
    have e : dataText decls lines = dataText decls (lines.take k) ++ unlines (lines.drop k) := by
      unfold dataText unlines
      rw [← List.flatMap_append, List.append_assoc, List.take_append_drop]
    rw [e, List.take_left]
  have hfile' : DataFile decls (rows.take k) (lines.take k) :=
    ⟨hfile.ids, hfile.declRange, List.forall₂_take k hfile.written, fun r hr => hfile.rowRange r (List.mem_of_mem_take hr)⟩
  have hp := C84_parseData_partial hfile' (by intro h; have := congrArg List.length h; rw [List.length_take, List.length_nil] at this; omega) (fun r hr => hlen r (List.mem_of_mem_take hr))
    (fun l hl => hshort l (by rcases List.mem_append.1 hl with h | h <;> simp [List.mem_of_mem_take, *] at * <;> first | exact Or.inl h | exact Or.inr (List.mem_of_mem_take h)))
  have hl := load_absent cwd E hE hc d fs h
  rw [hf, hcut] at hl
  simp only [Bool.false_eq_true, if_false] at hl
  rw [hl]
  refine ⟨rfl, fun calls E' hE' => ⟨_, ?_, rfl, by simp; omega⟩⟩
  rw [C121_cached cwd E' hE' d (dataText decls (lines.take k)) _ (C121_kept cwd calls _ _ _ (by simp [Files.put])), hp, List.map_take]

theorem decimal_row (v : Int) : WritesRow [v] (decimal v) := by simpa using WritesRow.last v [] (by simp)

/-- Two rows of one variable. -/
theorem twoRows_file : DataFile [(0, 2)] [[0], [1]] [decimal 0, decimal 1] :=
  ⟨by decide, by simp [Int64Range], .cons (decimal_row 0) (.cons (decimal_row 1) .nil), by simp [Int64Range]⟩

example : ∃ E : Env, E.statFails = false ∧ E.creates = true ∧ DataFile [(0, 2)] [[0], [1]] [decimal 0, decimal 1] ∧ (∀ r ∈ ([[0], [1]] : List (List Int)), [((0 : Int), (2 : Int))].length ≤ r.length) ∧
    (∀ l ∈ [((0 : Int), (2 : Int))].map declLine ++ [decimal 0, decimal 1], l.length < 65536) ∧ E.fetch (published "digits".toList) = .body (dataText [(0, 2)] [decimal 0, decimal 1]) true :=
  ⟨⟨false, true, fun _ => .body (dataText [(0, 2)] [decimal 0, decimal 1]) true⟩, rfl, rfl, twoRows_file, by simp, by decide, rfl⟩

example : ∃ E : Env, E.statFails = false ∧ E.creates = true ∧ E.fetch (published "digits".toList) = .body ((dataText [(0, 2)] [decimal 0, decimal 1]).take (dataText [(0, 2)] ([decimal 0, decimal 1].take 1)).length) false :=
  ⟨⟨false, true, fun _ => .body ((dataText [(0, 2)] [decimal 0, decimal 1]).take (dataText [(0, 2)] ([decimal 0, decimal 1].take 1)).length) false⟩, rfl, rfl, rfl⟩

/-- C121. Told to override, DownloadFromURL empties the file before it asks for the document: a download that fails destroys the file. -/
theorem C121_override (cwd : Str) (E : Env) (hE : E.statFails = false) (hc : E.creates = true) (u p : Str) (fs : Files) (hf : E.fetch u = .none) :
    download cwd E u p true fs = (fs.put (targetFile cwd u p) [], .panic) := by
  unfold download
  simp [hE, hc, hf]

example : (⟨false, true, fun _ => .none⟩ : Env).statFails = false ∧ (⟨false, true, fun _ => .none⟩ : Env).fetch [] = .none := ⟨rfl, rfl⟩

/-! ### MNIST -/

/-- What a download to a part of MNIST does. -/
theorem mnist_download (cwd : Str) (E : Env) (hE : E.statFails = false) (part : Str) (n b : Int) (fs : Files) :
    download cwd E (mnistURL part n b) (mnistPath part n b) false fs =
      if (fs (mnistKeptAt cwd part n b)).isSome then (fs, .ok) else if E.creates then match E.fetch (mnistPublished part n b) with
        | .none => (fs.put (mnistKeptAt cwd part n b) [], .panic)
        | .redirect => (fs.put (mnistKeptAt cwd part n b) [], .error)
        | .body t c => (fs.put (mnistKeptAt cwd part n b) t, if c then .ok else .error)
      else (fs, .error) := by
  unfold download
  simp only
  rw [mnist_target, hE, mnist_url]
  cases (fs (mnistKeptAt cwd part n b)).isSome <;> cases E.creates <;> rfl

theorem mnist_parts (cwd : Str) (n b : Int) : mnistKeptAt cwd "train".toList n b ≠ mnistKeptAt cwd "test".toList n b := by
  unfold mnistKeptAt keptAt
  intro h
  simp at h

/-- C121, for MNIST and downloads that go well: both parts are returned, now and later. -/
theorem C121_mnist_partial (cwd : Str) (E E' : Env) (hE : E.statFails = false ∧ E.creates = true) (hE' : E'.statFails = false ∧ E'.creates = true) (n b : Int) (fs : Files)
    (h : fs (mnistKeptAt cwd "test".toList n b) = none) (h' : fs (mnistKeptAt cwd "train".toList n b) = none) {t r : Str} (hf : E.fetch (mnistPublished "test".toList n b) = .body t true)
    (hf' : E'.fetch (mnistPublished "train".toList n b) = .body r true) {x y : List (Int × Int) × List VarSet} (hx : parseData t = some x) (hy : parseData r = some y) :
    (pullMNIST cwd E E' n b fs).2 = .data (x.1, x.2, y.2) ∧ ∀ (calls : List DataCall) (E₁ E₂ : Env), E₁.statFails = false → E₂.statFails = false →
      (pullMNIST cwd E₁ E₂ n b (calls.foldl (DataCall.after cwd) (pullMNIST cwd E E' n b fs).1)).2 = .data (x.1, x.2, y.2) := by
  have hne := mnist_parts cwd n b
  have h1 : pullMNIST cwd E E' n b fs = ((fs.put (mnistKeptAt cwd "test".toList n b) t).put (mnistKeptAt cwd "train".toList n b) r, .data (x.1, x.2, y.2)) := by
    unfold pullMNIST
    rw [mnist_download cwd E hE.1, h, hE.2, hf]
    simp only [Option.isSome_none, Bool.false_eq_true, if_false, if_true]
    rw [mnist_download cwd E' hE'.1]
    have : (fs.put (mnistKeptAt cwd "test".toList n b) t) (mnistKeptAt cwd "train".toList n b) = none := by rw [Files.put, if_neg hne, h']
    rw [this, hE'.2, hf']
    simp only [Option.isSome_none, Bool.false_eq_true, if_false, if_true, parseFile, mnist_getPath, Files.put, hne.symm, Option.bind_some, hx, hy]
  rw [h1]
  refine ⟨rfl, fun calls E₁ E₂ hE₁ hE₂ => ?_⟩
  set fs' := calls.foldl (DataCall.after cwd) ((fs.put (mnistKeptAt cwd "test".toList n b) t).put (mnistKeptAt cwd "train".toList n b) r) with hfs
  have k1 : fs' (mnistKeptAt cwd "test".toList n b) = some t := C121_kept cwd calls _ _ _ (by rw [Files.put, if_neg hne.symm, Files.put, if_pos rfl])
  have k2 : fs' (mnistKeptAt cwd "train".toList n b) = some r := C121_kept cwd calls _ _ _ (by rw [Files.put, if_pos rfl])
  unfold pullMNIST
  rw [mnist_download cwd E₁ hE₁, k1]
  simp only [Option.isSome_some, if_true]
  rw [mnist_download cwd E₂ hE₂, k2]
  simp only [Option.isSome_some, if_true, parseFile, mnist_getPath, k1, k2, Option.bind_some, hx, hy]

/-- C121 is false for MNIST: the error of the second download is not looked at, so a training set that is cut off is returned at once. -/
theorem C121_mnist_refuted (cwd : Str) (E E' : Env) (hE : E.statFails = false ∧ E.creates = true) (hE' : E'.statFails = false ∧ E'.creates = true) (n b : Int) (fs : Files)
    (h : fs (mnistKeptAt cwd "test".toList n b) = none) (h' : fs (mnistKeptAt cwd "train".toList n b) = none) {t r : Str} (hf : E.fetch (mnistPublished "test".toList n b) = .body t true)
    (hf' : E'.fetch (mnistPublished "train".toList n b) = .body r false) {x y : List (Int × Int) × List VarSet} (hx : parseData t = some x) (hy : parseData r = some y) :
    (pullMNIST cwd E E' n b fs).2 = .data (x.1, x.2, y.2) := by
  have hne := mnist_parts cwd n b
  unfold pullMNIST
  rw [mnist_download cwd E hE.1, h, hE.2, hf]
  simp only [Option.isSome_none, Bool.false_eq_true, if_false, if_true]
  rw [mnist_download cwd E' hE'.1]
  have : (fs.put (mnistKeptAt cwd "test".toList n b) t) (mnistKeptAt cwd "train".toList n b) = none := by rw [Files.put, if_neg hne, h']
  rw [this, hE'.2, hf']
  simp only [Option.isSome_none, Bool.false_eq_true, if_false, if_true, parseFile, mnist_getPath, Files.put, hne.symm, Option.bind_some, hx, hy]

example : ∃ x y : List (Int × Int) × List VarSet, parseData (dataText [(0, 2)] [decimal 0, decimal 1]) = some x ∧ parseData (dataText [(0, 2)] ([decimal 0, decimal 1].take 1)) = some y ∧ y.2.length < x.2.length :=
  ⟨_, _, C84_parseData_partial twoRows_file (by simp) (by simp) (by decide),
    C84_parseData_partial (rows := [[0]]) ⟨by decide, by simp [Int64Range], .cons (decimal_row 0) .nil, by simp [Int64Range]⟩ (by simp) (by simp) (by decide), by simp⟩

/-- The names of the data sets in data/datasets.go. -/
def Spec.datasetNames : List String := ["caltech", "caltech_4bit", "caltech_3bit", "digits", "digits_x", "olivetti", "olivetti_3bit", "olivetti_padded_u", "olivetti_big", "olivetti_small"]

/-- C121. Different data sets have different files, whatever the working directory, and none is that of a part of MNIST. -/
theorem C121_own_file (cwd d d' : Str) : (keptAt cwd d = keptAt cwd d' ↔ d = d') ∧ (∀ name ∈ datasetNames, ∀ part n b, keptAt cwd name.toList ≠ mnistKeptAt cwd part n b) := by
  have inj : ∀ d d', keptAt cwd d = keptAt cwd d' → d = d' := by
    intro d d' h
    unfold keptAt at h
    exact List.append_cancel_left (List.append_cancel_right h)
  refine ⟨⟨inj d d', fun h => by rw [h]⟩, ?_⟩
  intro name hn part n b h
  have := congrArg List.head? (inj _ _ h)
  simp only [datasetNames, List.mem_cons, List.not_mem_nil, or_false] at hn
  rcases hn with rfl | rfl | rfl | rfl | rfl | rfl | rfl | rfl | rfl | rfl <;> simp at this

end Gospn
