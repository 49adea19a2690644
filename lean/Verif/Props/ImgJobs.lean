/-
C93: which files the concurrent image jobs write.
-/
import Verif.Model.App
import Verif.Proofs.Text
import Verif.Props.Conc

set_option linter.unusedSectionVars false
set_option linter.unusedSimpArgs false

namespace Gospn
open Spec

theorem ImgRun.toQRun {files : Int → Int → List (Str × Int)} {s s' : QState} {t : List QEvent} {fs : List (Str × Int)} (h : ImgRun files s t fs s') : QRun s t s' := by
  induction h with
  | nil => exact .nil _
  | quiet _ hs _ ih => exact .step ih hs
  | job _ hs _ _ ih => exact .step (e := some _) ih hs

theorem runIds_append (p p' : List QCmd) : runIds (p ++ p') = runIds p ++ runIds p' := by
  induction p with
  | nil => rfl
  | cons c p ih => cases c <;> simp [runIds, ih]

theorem imgProg_ids (ndata : Nat) : runIds (imgProg ndata) = (List.range ndata).map (fun (i : Nat) => (i : Int)) := by
  have : ∀ l : List Nat, runIds (l.map fun (i : Nat) => QCmd.run (i : Int)) = l.map fun (i : Nat) => (i : Int) := by
    intro l
    induction l with
    | nil => rfl
    | cons a l ih => simp [runIds, ih]
  rw [imgProg, runIds_append, this]
  simp [runIds]

theorem imgProg_submitted (ndata c q : Nat) (id : Int) : Submitted [imgProg ndata] c q id ↔ c = 0 ∧ (q : Int) = id ∧ q < ndata := by
  constructor
  · rintro ⟨p, h1, h2⟩
    cases c with
    | succ c => simp at h1
    | zero =>
      simp only [List.getElem?_cons_zero, Option.some.injEq] at h1
      subst h1
      rw [imgProg_ids, List.getElem?_map] at h2
      obtain ⟨a, h3, h4⟩ := Option.map_eq_some_iff.1 h2
      by_cases hq : q < ndata
      · simp [hq] at h3; subst h3; exact ⟨rfl, h4, hq⟩
      · simp [hq] at h3
  · rintro ⟨rfl, rfl, hq⟩
    exact ⟨imgProg ndata, rfl, by rw [imgProg_ids]; simp [hq]⟩

/-- What a step does to the number of jobs started. -/
theorem QStep.seq {s s' : QState} {e : Option QEvent} (h : QStep s e s') (i : Nat) (c' : Caller) (hc : s'.callers[i]? = some c') :
    ∃ c, s.callers[i]? = some c ∧ (c'.seq = c.seq ∨ (c'.seq = c.seq + 1 ∧ ∃ j, c.prog = .run j :: c'.prog)) := by
  have hset : ∀ (k : Nat) (a b : Caller), s.callers[k]? = some a → (s.callers.set k b)[i]? = some c' → (b.seq = a.seq ∨ (b.seq = a.seq + 1 ∧ ∃ j, a.prog = .run j :: b.prog)) →
      ∃ c, s.callers[i]? = some c ∧ (c'.seq = c.seq ∨ (c'.seq = c.seq + 1 ∧ ∃ j, c.prog = .run j :: c'.prog)) := by
    intro k a b ha hi hab
    rw [List.getElem?_set] at hi
    by_cases hk : k = i
    · subst hk
      have hlt := (List.getElem?_eq_some_iff.1 ha).1
      simp [hlt] at hi
      subst hi
      exact ⟨a, ha, hab⟩
    · rw [if_neg hk] at hi
      exact ⟨c', hi, Or.inl rfl⟩
  cases h with
  | go k j r q h1 => exact hset k _ _ h1 hc (Or.inr ⟨rfl, j, rfl⟩)
  | lock k j r q h1 _ => exact hset k _ _ h1 hc (Or.inl rfl)
  | full k p q h1 _ => exact hset k _ _ h1 hc (Or.inl rfl)
  | count k p q h1 _ => exact hset k _ _ h1 hc (Or.inl rfl)
  | park k p q b h1 => exact hset k _ _ h1 hc (Or.inl rfl)
  | relock k p q h1 _ => exact hset k _ _ h1 hc (Or.inl rfl)
  | unlock k p q h1 => exact hset k _ _ h1 hc (Or.inl rfl)
  | add k p q h1 => exact hset k _ _ h1 hc (Or.inl rfl)
  | wait k r q h1 => exact hset k _ _ h1 hc (Or.inl rfl)
  | zero k p q h1 _ => exact hset k _ _ h1 hc (Or.inl rfl)
  | waitRet k r q h1 => exact hset k _ _ h1 hc (Or.inl rfl)
  | signal w c q j k cl _ h1 _ => exact hset k _ _ h1 hc (Or.inl rfl)
  | start => exact ⟨c', hc, Or.inl rfl⟩
  | finish => exact ⟨c', hc, Or.inl rfl⟩
  | wlock => exact ⟨c', hc, Or.inl rfl⟩
  | dec => exact ⟨c', hc, Or.inl rfl⟩
  | wunlock => exact ⟨c', hc, Or.inl rfl⟩
  | signalNone => exact ⟨c', hc, Or.inl rfl⟩
  | wgDone => exact ⟨c', hc, Or.inl rfl⟩

theorem imgRun_seq_le {n : Int} {ndata : Nat} {t : List QEvent} {s : QState} (h : QRun (QState.init n [imgProg ndata]) t s) (c : Caller) (hc : s.callers[0]? = some c) : c.seq ≤ ndata := by
  induction h generalizing c with
  | nil => simp [QState.init] at hc; subst hc; simp
  | step hr hs ih =>
    obtain ⟨c0, h1, h2⟩ := hs.seq 0 c hc
    have hle := ih c0 h1
    rcases h2 with h2 | ⟨h2, j, h3⟩
    · omega
    · have hj := (JobInv.run hr).rest 0 c0 h1 (imgProg ndata) rfl
      rw [h3, imgProg_ids] at hj
      have := congrArg List.length hj
      simp [runIds] at this
      omega

theorem itoa_nat_inj {a b : Nat} (h : itoa (a : Int) = itoa (b : Int)) : a = b := by
  have ha : itoa (a : Int) = natStr a := by simp [itoa]
  have hb : itoa (b : Int) = natStr b := by simp [itoa]
  rw [ha, hb] at h
  have := natOfStr_natStr a
  rw [h, natOfStr_natStr] at this
  exact (Option.some.inj this).symm

theorem itoa_nat_dec (a : Nat) : ∀ c ∈ itoa (a : Int), isDec c = true := by
  have ha : itoa (a : Int) = natStr a := by simp [itoa]
  rw [ha]; exact natStr_isDec a

theorem append_mark_inj {p : Char → Bool} {d d' : Char} {a b x y : List Char} (ha : ∀ c ∈ a, p c = true) (hb : ∀ c ∈ b, p c = true) (hd : p d = false) (hd' : p d' = false)
    (h : a ++ d :: x = b ++ d' :: y) : a = b ∧ d :: x = d' :: y := by
  have h1 : (a ++ d :: x).takeWhile p = a := by
    rw [List.takeWhile_append_of_pos ha]; simp [hd]
  have h2 : (b ++ d' :: y).takeWhile p = b := by
    rw [List.takeWhile_append_of_pos hb]; simp [hd']
  have : a = b := by rw [← h1, h, h2]
  subst this
  exact ⟨rfl, List.append_cancel_left h⟩

theorem cmplText_inj {v v' : CmplType} (hv : v ∈ orientations) (hv' : v' ∈ orientations) (h : v.text = v'.text) : v = v' := by
  simp only [orientations, List.mem_cons, List.not_mem_nil, or_false] at hv hv'
  rcases hv with rfl | rfl | rfl | rfl <;> rcases hv' with rfl | rfl | rfl | rfl <;> first | rfl | exact absurd h (by decide)

/-- Different images and orientations have different file names. -/
theorem complName_inj {a b : Nat} {v v' : CmplType} (hv : v ∈ orientations) (hv' : v' ∈ orientations) (h : complName a v = complName b v') : a = b ∧ v = v' := by
  unfold complName at h
  have h1 := List.append_cancel_left h
  obtain ⟨h2, h3⟩ := append_mark_inj (p := isDec) (itoa_nat_dec a) (itoa_nat_dec b) (by decide) (by decide) h1
  refine ⟨itoa_nat_inj h2, cmplText_inj hv hv' ?_⟩
  exact List.append_cancel_right (List.cons.inj h3).2

theorem testName_inj {a b : Nat} {v v' : CmplType} (hv : v ∈ quadrants) (hv' : v' ∈ quadrants) (h : testName a v = testName b v') : a = b ∧ v = v' := by
  unfold testName at h
  have h1 := List.append_cancel_left h
  have hv1 : v ∈ orientations := by revert hv; cases v <;> simp [quadrants, orientations]
  have hv1' : v' ∈ orientations := by revert hv'; cases v' <;> simp [quadrants, orientations]
  have hnm : ∀ u : CmplType, ∀ c ∈ u.text, (fun c : Char => decide (c ≠ '_')) c = true := by
    intro u; cases u <;> decide
  obtain ⟨h2, h3⟩ := append_mark_inj (p := fun c => decide (c ≠ '_')) (hnm v) (hnm v') (by decide) (by decide) h1
  have h4 := append_mark_inj (p := isDec) (itoa_nat_dec a) (itoa_nat_dec b) (d := '.') (d' := '.') (by decide) (by decide) (List.cons.inj h3).2
  exact ⟨itoa_nat_inj h4.1, cmplText_inj hv1 hv1' h2⟩

/-- The id of a job that has ended is the number of an image, and it ends once. -/
theorem imgRun_finish {n cpu : Int} {ndata : Nat} {t : List QEvent} {s s' : QState} (h : QRun (QState.init (queueSize n cpu) [imgProg ndata]) t s) {c q : Nat} {id : Int} (hs : QStep s (some (.finish c q id)) s') :
    c = 0 ∧ (q : Int) = id ∧ q < ndata ∧ t.count (.finish c q id) = 0 := by
  have h' := QRun.step h hs
  have h1 := C16_exactly_once n cpu [imgProg ndata] _ s' h' c q id
  have hcount : 0 < (t ++ (some (QEvent.finish c q id)).toList).count (.finish c q id) := by simp
  by_cases hsub : Submitted [imgProg ndata] c q id
  · obtain ⟨e1, e2, e3⟩ := (imgProg_submitted ndata c q id).1 hsub
    refine ⟨e1, e2, e3, ?_⟩
    have := h1.1 hsub
    simp [List.count_append] at this
    have h2 : t.count (.finish c q id) ≤ 0 := by omega
    omega
  · have := (h1.2.1 hsub).2
    omega

/-- The four completion types are completed, each once, and nothing else is. -/
theorem C93_types (v : CmplType) : (v ≠ .other → v ∈ orientations ∧ v ∈ quadrants) ∧ (v = .other → v ∉ orientations ∧ v ∉ quadrants) ∧ orientations.Nodup ∧ quadrants.Nodup := by
  cases v <;> decide

/-- **C93**, for `ImgCompletion`: whatever the number of jobs at a time and the interleaving, when all is done each of the four files of each image has been written once, with the completion of that
image, and no other file has been written; the names are all different (`complName_inj`). -/
theorem C93_completion (n cpu : Int) (ndata : Nat) (t : List QEvent) (fs : List (Str × Int)) (s : QState)
    (h : ImgRun completionFiles (QState.init (queueSize n cpu) [imgProg ndata]) t fs s) :
    (fs.map Prod.fst).Nodup ∧ (∀ f ∈ fs, ∃ id : Nat, id < ndata ∧ ∃ v ∈ orientations, f = (complName id v, (id : Int))) ∧
    (Finished s → ∀ id : Nat, id < ndata → ∀ v, v ≠ .other → (complName id v, (id : Int)) ∈ fs) := by
  have inv : fs.Nodup ∧ (∀ f ∈ fs, ∃ id : Nat, id < ndata ∧ QEvent.finish 0 id (id : Int) ∈ t ∧ ∃ v ∈ orientations, f = (complName id v, (id : Int))) ∧
      (∀ id : Nat, QEvent.finish 0 id (id : Int) ∈ t → ∀ v ∈ orientations, (complName id v, (id : Int)) ∈ fs) := by
    induction h with
    | nil => exact ⟨by simp, by simp, by simp⟩
    | @quiet s' s'' t fs e hr hs hne ih =>
      obtain ⟨i1, i2, i3⟩ := ih
      refine ⟨i1, ?_, ?_⟩
      · intro f hf
        obtain ⟨id, g1, g2, g3⟩ := i2 f hf
        exact ⟨id, g1, by simp [g2], g3⟩
      · intro id hid v hv
        rcases List.mem_append.1 hid with hid | hid
        · exact i3 id hid v hv
        · exact absurd (by simpa using hid) (hne 0 id id)
    | @job s' s'' t fs c q id cl i hr hs hcl hi ih =>
      obtain ⟨i1, i2, i3⟩ := ih
      obtain ⟨rfl, rfl, hq, hcount⟩ := imgRun_finish hr.toQRun hs
      have hnew : (completionFiles (q : Int) i).Nodup := by
        unfold completionFiles
        apply List.Nodup.map_on
        · intro x hx y hy hxy
          exact (complName_inj hx hy (Prod.mk.inj hxy).1).2
        · decide
      refine ⟨?_, ?_, ?_⟩
      · rw [List.nodup_append]
        refine ⟨i1, hnew, ?_⟩
        intro a ha b hb hab
        subst hab
        obtain ⟨id, g1, g2, v, g3, g4⟩ := i2 a ha
        simp only [completionFiles, List.mem_map] at hb
        obtain ⟨v', hv', e⟩ := hb
        rw [g4, Prod.mk.injEq] at e
        have hid : q = id := by exact_mod_cast e.2
        subst hid
        exact absurd (List.count_pos_iff.2 g2) (by omega)
      · intro f hf
        rcases List.mem_append.1 hf with hf | hf
        · obtain ⟨id, g1, g2, g3⟩ := i2 f hf
          exact ⟨id, g1, by simp [g2], g3⟩
        · simp only [completionFiles, List.mem_map] at hf
          obtain ⟨v', hv', rfl⟩ := hf
          exact ⟨q, hq, by simp, v', hv', rfl⟩
      · intro id hid v hv
        rcases List.mem_append.1 hid with hid | hid
        · exact List.mem_append_left _ (i3 id hid v hv)
        · simp only [List.mem_singleton, QEvent.finish.injEq] at hid
          obtain ⟨_, rfl, _⟩ := hid
          exact List.mem_append_right _ (List.mem_map.2 ⟨v, hv, rfl⟩)
  obtain ⟨i1, i2, i3⟩ := inv
  refine ⟨?_, ?_, ?_⟩
  · apply List.Nodup.map_on _ i1
    intro x hx y hy hxy
    obtain ⟨a, _, _, v, hv, rfl⟩ := i2 x hx
    obtain ⟨b, _, _, v', hv', rfl⟩ := i2 y hy
    obtain ⟨rfl, rfl⟩ := complName_inj hv hv' hxy
    rfl
  · intro f hf
    obtain ⟨id, g1, _, g3⟩ := i2 f hf
    exact ⟨id, g1, g3⟩
  · intro hf id hid v hv
    apply i3 id _ v ((C93_types v).1 hv).1
    have := (C16_exactly_once n cpu [imgProg ndata] t s h.toQRun 0 id id).2.2 hf ((imgProg_submitted ndata 0 id id).2 ⟨rfl, rfl, hid⟩)
    exact List.count_pos_iff.1 (by omega)

/-- Every execution of the queue is one that writes files. -/
theorem imgRun_exists (files : Int → Int → List (Str × Int)) {n : Int} {ndata : Nat} {t : List QEvent} {s : QState} (h : QRun (QState.init n [imgProg ndata]) t s) :
    ∃ fs, ImgRun files (QState.init n [imgProg ndata]) t fs s := by
  induction h with
  | nil => exact ⟨[], .nil _⟩
  | @step s' s'' t e hr hs ih =>
    obtain ⟨fs, h1⟩ := ih
    cases e with
    | none => exact ⟨fs, .quiet h1 hs (by simp)⟩
    | some e =>
      cases e with
      | start a b d => exact ⟨fs, .quiet h1 hs (by simp)⟩
      | finish a b d =>
        have hlen : s'.callers.length = 1 := by simpa using (JobInv.run hr).len
        exact ⟨_, .job h1 hs (List.getElem?_eq_getElem (by omega)) (Or.inl rfl)⟩

/-- **C93**: from every moment of every execution all jobs can end, and there is no infinite execution (C17); so the files of `C93_completion` do get written. -/
theorem C93_terminates (n cpu : Int) (hcpu : 0 < cpu) (ndata : Nat) :
    (¬ ∃ f : Nat → QState, f 0 = QState.init (queueSize n cpu) [imgProg ndata] ∧ ∀ i, ∃ e, QStep (f i) e (f (i + 1))) ∧
    ∃ t fs s, ImgRun completionFiles (QState.init (queueSize n cpu) [imgProg ndata]) t fs s ∧ Finished s := by
  obtain ⟨h1, _, h3⟩ := C17_terminates n cpu hcpu [imgProg ndata]
  refine ⟨h1, ?_⟩
  obtain ⟨t, s, h4, h5⟩ := h3 [] _ (.nil _)
  obtain ⟨fs, h6⟩ := imgRun_exists completionFiles h4
  exact ⟨t, fs, s, h6, h5⟩

/-- **C93**, part, for `ImgTestParallel`: the completions of image `id` go to files numbered `i` for some `i` from `id` up to the number of images (`i` is the loop variable at the time the
job ends, not the number of the image). -/
theorem C93_parallel_partial (n cpu : Int) (ndata : Nat) (t : List QEvent) (fs : List (Str × Int)) (s : QState)
    (h : ImgRun testFiles (QState.init (queueSize n cpu) [imgProg ndata]) t fs s) :
    ∀ f ∈ fs, ∃ id i : Nat, id < ndata ∧ id ≤ i ∧ i ≤ ndata ∧ ∃ q ∈ quadrants, f = (testName i q, (id : Int)) := by
  induction h with
  | nil => simp
  | quiet hr hs hne ih => exact ih
  | @job s' s'' t fs c q id cl i hr hs hcl hi ih =>
    have ih' := ih
    obtain ⟨rfl, rfl, hq, hcount⟩ := imgRun_finish hr.toQRun hs
    intro f hf
    rcases List.mem_append.1 hf with hf | hf
    · exact ih' f hf
    · have hle := imgRun_seq_le hr.toQRun cl hcl
      have hlt : q < cl.seq := by
        have hj := JobInv.run hr.toQRun
        have h1 := hj.jobs 0 cl hcl (imgProg ndata) rfl q q
        by_contra hn
        rw [if_neg (fun g => hn g.1)] at h1
        cases hs with
        | finish w c q j hw =>
          have : 0 < wk (fun _ => true) (0, q, (q : Int)) s'.workers := by
            apply List.countP_pos_iff.2
            exact ⟨_, List.mem_of_getElem? hw, by simp [Worker.key]⟩
          omega
      simp only [testFiles, List.mem_map] at hf
      obtain ⟨v, hv, rfl⟩ := hf
      refine ⟨q, i.toNat, hq, by omega, by omega, v, hv, ?_⟩
      rw [Int.toNat_of_nonneg (by omega)]

/-- All jobs can be started before any of them does anything, if there are places for all. -/
theorem imgSpawn (n : Int) (ndata : Nat) (hn : (ndata : Int) ≤ n) : ∀ k : Nat, k ≤ ndata → ∃ ws : List Worker,
    QRun (QState.init n [imgProg ndata]) [] ⟨n, k, k, false, [⟨(imgProg ndata).drop k, .idle, k⟩], ws⟩ := by
  intro k
  induction k with
  | zero => intro _; exact ⟨[], QRun.nil _⟩
  | succ k ih =>
    intro hk
    obtain ⟨ws, h1⟩ := ih (by omega)
    have hd : (imgProg ndata).drop k = .run (k : Int) :: (imgProg ndata).drop (k + 1) := by
      have hl : k < (imgProg ndata).length := by simp [imgProg]; omega
      rw [List.drop_eq_getElem_cons hl]
      congr 1
      simp only [imgProg]
      rw [List.getElem_append_left (by simp; omega)]
      simp
    rw [hd] at h1
    have h2 := QRun.step h1 (QStep.lock _ 0 k _ k rfl rfl)
    have h3 := QRun.step h2 (QStep.count _ 0 _ k rfl (by simp; omega))
    have h4 := QRun.step h3 (QStep.unlock _ 0 _ k rfl)
    have h5 := QRun.step h4 (QStep.add _ 0 _ k rfl)
    have h6 := QRun.step h5 (QStep.go _ 0 k _ k rfl)
    refine ⟨ws ++ [⟨0, k, k, .ready⟩], ?_⟩
    have e : ((k + 1 : Nat) : Int) = (k : Int) + 1 := by push_cast; rfl
    rw [e]
    exact h6

/-- An execution without files, and one with them. -/
theorem imgRun_quiet {files : Int → Int → List (Str × Int)} {s s' : QState} {t : List QEvent} (h : QRun s t s') (ht : t = []) : ImgRun files s [] [] s' := by
  induction h with
  | nil => exact .nil _
  | @step s' s'' t e hr hs ih =>
    obtain ⟨h1, h2⟩ := List.append_eq_nil_iff.1 ht
    have := ImgRun.quiet (ih h1) hs (by
      intro c q id he
      rw [he] at h2; simp at h2)
    rw [h2] at this
    exact this

/-- **C93** fails for `ImgTestParallel`: for any number of images there is an execution, with as many jobs at a time as images, that ends after writing only files numbered with the number of images; no file
has the number of its image, and images from the second on overwrite the files of others. -/
theorem C93_parallel_refuted (ndata : Nat) (h0 : 0 < ndata) (cpu : Int) (hcpu : 0 < cpu) : ∃ t fs s, ImgRun testFiles (QState.init (queueSize ndata cpu) [imgProg ndata]) t fs s ∧ Finished s ∧
    (∀ f ∈ fs, ∃ q ∈ quadrants, f.1 = testName ndata q) ∧
    (∀ f ∈ fs, ∀ id : Nat, id < ndata → ∀ q ∈ quadrants, f.1 ≠ testName id q) ∧
    (∀ id : Nat, id < ndata → ∀ q, q ≠ .other → (testName ndata q, (id : Int)) ∈ fs) := by
  have hq : queueSize ndata cpu = ndata := by unfold queueSize; rw [if_neg (by omega)]
  obtain ⟨ws, h1⟩ := imgSpawn (queueSize ndata cpu) ndata (by rw [hq]) ndata (le_refl _)
  obtain ⟨t', s', h2, h3⟩ := (C17_terminates ndata cpu hcpu [imgProg ndata]).2.2 _ _ h1
  have key : ∀ {s1 t1 s2}, QRun s1 t1 s2 → QRun (QState.init (queueSize ndata cpu) [imgProg ndata]) [] s1 → (∃ c, s1.callers[0]? = some c ∧ c.seq = ndata) →
      ∃ fs, ImgRun testFiles s1 t1 fs s2 ∧ (∃ c, s2.callers[0]? = some c ∧ c.seq = ndata) ∧
        fs = t1.flatMap (fun | .start _ _ _ => [] | .finish _ _ id => testFiles id ndata) := by
    intro s1 t1 s2 hr
    induction hr with
    | nil => intro _ hc; exact ⟨[], .nil _, hc, rfl⟩
    | @step s' s'' t e hr hs ih =>
      intro hinit hc
      obtain ⟨fs, g1, ⟨c, g2, g3⟩, g4⟩ := ih hinit hc
      have hlen : s''.callers.length = 1 := by
        have := (JobInv.run (QRun.step (hinit.append hr) hs)).len
        simpa using this
      obtain ⟨c', hc'⟩ : ∃ c', s''.callers[0]? = some c' := ⟨s''.callers[0], List.getElem?_eq_getElem _⟩
      have hc'' : ∃ c, s''.callers[0]? = some c ∧ c.seq = ndata := by
        refine ⟨c', hc', ?_⟩
        have hle := imgRun_seq_le (QRun.step (hinit.append hr) hs) c' hc'
        obtain ⟨c0, k1, k2⟩ := hs.seq 0 c' hc'
        rw [g2, Option.some.injEq] at k1
        subst k1
        rcases k2 with k2 | ⟨k2, _⟩ <;> omega
      cases e with
      | none => exact ⟨fs, .quiet g1 hs (by simp), hc'', by simp [g4]⟩
      | some e =>
        cases e with
        | start a b d => exact ⟨fs, .quiet g1 hs (by simp), hc'', by simp [g4]⟩
        | finish a b d =>
          refine ⟨fs ++ testFiles d ndata, ?_, hc'', by simp [g4]⟩
          exact .job g1 hs g2 (Or.inl (by rw [g3]))
  obtain ⟨fs, g1, _, g3⟩ := key h2 h1 ⟨_, rfl, rfl⟩
  obtain ⟨k, hk⟩ : ∃ fs', ImgRun testFiles (QState.init (queueSize ndata cpu) [imgProg ndata]) t' fs' s' ∧ fs' = fs := by
    have happ : ∀ {s1 t1 fs1 s2}, ImgRun testFiles s1 t1 fs1 s2 → ImgRun testFiles (QState.init (queueSize ndata cpu) [imgProg ndata]) [] [] s1 →
        ImgRun testFiles (QState.init (queueSize ndata cpu) [imgProg ndata]) t1 fs1 s2 := by
      intro s1 t1 fs1 s2 hr hi
      induction hr with
      | nil => exact hi
      | quiet _ hs hne ih => exact .quiet ih hs hne
      | job _ hs hcl hi' ih => exact .job ih hs hcl hi'
    exact ⟨fs, happ g1 (imgRun_quiet h1 rfl), rfl⟩
  obtain ⟨hk, rfl⟩ := hk
  have hname : ∀ f ∈ k, ∃ q ∈ quadrants, f.1 = testName ndata q := by
    intro f hf
    rw [g3, List.mem_flatMap] at hf
    obtain ⟨e, _, he⟩ := hf
    cases e with
    | start => simp at he
    | finish a b d =>
      simp only [testFiles, List.mem_map] at he
      obtain ⟨q, hq, rfl⟩ := he
      exact ⟨q, hq, rfl⟩
  refine ⟨t', k, s', hk, h3, hname, ?_, ?_⟩
  · intro f hf id hid q hqq hc
    obtain ⟨q', hq', e⟩ := hname f hf
    rw [e] at hc
    have := (testName_inj hq' hqq hc).1
    omega
  · intro id hid q hqo
    have := (C16_exactly_once ndata cpu [imgProg ndata] t' s' (by simpa using h1.append h2) 0 id id).2.2 h3 ((imgProg_submitted ndata 0 id id).2 ⟨rfl, rfl, hid⟩)
    have hm : QEvent.finish 0 id (id : Int) ∈ t' := List.count_pos_iff.1 (by omega)
    rw [g3, List.mem_flatMap]
    exact ⟨_, hm, List.mem_map.2 ⟨q, ((C93_types q).1 hqo).2, rfl⟩⟩

end Gospn
