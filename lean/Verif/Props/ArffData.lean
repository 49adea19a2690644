/-
C90: what ARFFToData writes is read back by ParseData.
-/
import Verif.Props.Arff
import Verif.Props.Folder

set_option linter.unusedSectionVars false
set_option linter.unusedSimpArgs false

namespace Gospn

open Spec

theorem splitAt1_commaList {r : List Str} (hne : r ≠ []) (h : ∀ t ∈ r, ',' ∉ t) : splitAt1 (· = ',') (commaList r) = r := by
  have hc : ∀ t ∈ r, ∀ c ∈ t, decide (c = ',') = false := by
    intro t ht c hct
    rw [decide_eq_false_iff_not]; rintro rfl; exact h t ht hct
  induction r with
  | nil => exact absurd rfl hne
  | cons t r ih =>
    cases r with
    | nil => rw [commaList, splitAt1_self (hc t (by simp))]
    | cons t' r =>
      rw [commaList, splitAt1_append (hc t (by simp)) (by simp), ih (by simp) (fun t ht => h t (by simp [ht])) fun t ht => hc t (by simp [ht])]

theorem commaList_mem {r : List Str} {c : Char} (hc : c ∈ commaList r) : c = ',' ∨ ∃ t ∈ r, c ∈ t := by
  induction r with
  | nil => simp [commaList] at hc
  | cons t r ih =>
    cases r with
    | nil => exact Or.inr ⟨t, by simp, hc⟩
    | cons t' r =>
      rw [commaList] at hc
      rcases List.mem_append.1 hc with hc | hc
      · exact Or.inr ⟨t, by simp, hc⟩
      · rcases List.mem_cons.1 hc with hc | hc
        · exact Or.inl hc
        · rcases ih hc with h | ⟨s, hs, h⟩
          · exact Or.inl h
          · exact Or.inr ⟨s, by simp [hs], h⟩

/-- The position of a value among different labels. -/
theorem encode_label {ls : List Str} (hd : ls.Nodup) {t : Str} (k : Nat) (v : Str) :
    (ls.zipIdx k).foldl (fun v y => if t = y.1 then itoa y.2 else v) v = if t ∈ ls then itoa ((k + ls.idxOf t : Nat) : Int) else v := by
  induction ls generalizing k v with
  | nil => simp
  | cons l ls ih =>
    rw [List.zipIdx_cons, List.foldl_cons, ih (List.nodup_cons.1 hd).2]
    have hl := (List.nodup_cons.1 hd).1
    by_cases h1 : t = l
    · subst h1; simp [hl]
    · have h1' : ¬ l = t := fun h => h1 h.symm
      by_cases h2 : t ∈ ls
      · rw [if_pos h2, if_pos (by simp [h2]), List.idxOf_cons_ne _ h1']
        congr 2; omega
      · rw [if_neg h2, if_neg h1, if_neg (by simp [h1, h2])]

theorem splitAt1_two {p : Char → Bool} {t : Str} (ht : ∀ c ∈ t, p c = false) {c : Char} (hc : p c = true) (s : Str) :
    (splitAt1 p (t ++ c :: s)).length ≠ 1 ∧ (splitAt1 p (t ++ c :: s)).headD [] = t := by
  rw [splitAt1_append ht hc]
  refine ⟨?_, rfl⟩
  have := List.length_pos_iff.2 (splitAt1_ne_nil p s)
  rw [List.length_cons]; omega

theorem splitAt1_head_prefix {p : Char → Bool} (s : Str) (h : (splitAt1 p s).length ≠ 1) : ∃ c t, p c = true ∧ s = (splitAt1 p s).headD [] ++ c :: t := by
  induction s with
  | nil => simp [splitAt1] at h
  | cons a s ih =>
    by_cases ha : p a = true
    · exact ⟨a, s, ha, by simp [splitAt1, ha]⟩
    · obtain ⟨x, xs, hx⟩ := List.exists_cons_of_ne_nil (splitAt1_ne_nil p s)
      rw [splitAt1, if_neg ha, hx] at h ⊢
      rw [hx] at ih
      obtain ⟨c, t, hc, ht⟩ := ih (by simpa [consFirst] using h)
      refine ⟨c, t, hc, ?_⟩
      have ht' : s = x ++ c :: t := ht
      simp [consFirst, ht']

theorem splitAt1_one {p : Char → Bool} (s : Str) (h : (splitAt1 p s).length = 1) : (splitAt1 p s).headD [] = s := by
  induction s with
  | nil => rfl
  | cons a s ih =>
    obtain ⟨x, xs, hx⟩ := List.exists_cons_of_ne_nil (splitAt1_ne_nil p s)
    by_cases ha : p a = true
    · rw [splitAt1, if_pos ha, hx] at h; simp at h
    · rw [splitAt1, if_neg ha, hx] at h ⊢
      rw [hx] at ih
      have := ih (by simpa [consFirst] using h)
      simpa [consFirst] using this

theorem arffDataLine_skip {s : Bool × List (List Str) × List (List Str)} (hs : s.1 = false) {l : Str} (h1 : ¬ "@attribute ".toList <+: l) (h2 : l ≠ "@data".toList) :
    arffDataLine s l = some s := by
  unfold arffDataLine
  simp only [hs, if_true]
  split
  · rename_i hne
    split
    · rename_i he
      exfalso
      obtain ⟨c, t, hc, ht⟩ := splitAt1_head_prefix l hne
      rw [he] at ht
      have : c = ' ' := by simpa using hc
      subst this
      exact h1 ⟨t, by rw [ht]; rfl⟩
    · rfl
  · rename_i hne
    have := splitAt1_one l (not_not.1 hne)
    rw [this]; exact if_neg h2

theorem isLabel_not {l : Str} (h : IsLabel l) : ',' ∉ l ∧ '{' ∉ l ∧ '}' ∉ l ∧ '\n' ∉ l ∧ '\r' ∉ l :=
  ⟨fun hc => (h.2 _ hc).2.1 rfl, fun hc => (h.2 _ hc).2.2.1 rfl, fun hc => (h.2 _ hc).2.2.2.1 rfl, fun hc => (h.2 _ hc).2.2.2.2.1 rfl, fun hc => (h.2 _ hc).2.2.2.2.2.1 rfl⟩

theorem arffDataLine_attr {s : Bool × List (List Str) × List (List Str)} (hs : s.1 = false) {ls : List Str} {l : Str} (hl : NominalLine ls l) (hne : ls ≠ []) (hlab : ∀ t ∈ ls, IsLabel t) :
    arffDataLine s l = some (s.1, s.2.1 ++ [ls], s.2.2) := by
  obtain ⟨name, more, hn, -, -, -, -, rfl⟩ := hl
  have hnot : ∀ c : Char, c ≠ ',' → (∀ t ∈ ls, c ∉ t) → c ∉ commaList ls := by
    intro c hc ht hm
    rcases commaList_mem hm with h | ⟨t, h, h'⟩
    · exact hc h
    · exact ht t h h'
  unfold arffDataLine
  have e1 : "@attribute ".toList ++ (name ++ ('{' :: (commaList ls ++ '}' :: more))) = "@attribute".toList ++ ' ' :: (name ++ ('{' :: (commaList ls ++ '}' :: more))) := rfl
  have e2 : "@attribute ".toList ++ (name ++ ('{' :: (commaList ls ++ '}' :: more))) = ("@attribute ".toList ++ name) ++ '{' :: (commaList ls ++ '}' :: more) := by simp
  have hA := splitAt1_two (p := fun c => decide (c = ' ')) (t := "@attribute".toList) (by decide) (c := ' ') (by decide) (name ++ ('{' :: (commaList ls ++ '}' :: more)))
  have hB : (splitAt1 (fun c => decide (c = '{')) ("@attribute ".toList ++ (name ++ ('{' :: (commaList ls ++ '}' :: more)))))[1]? = some (commaList ls ++ '}' :: more) ∨ True := Or.inr trivial
  clear hB
  have hpre : ∀ c ∈ "@attribute ".toList ++ name, decide (c = '{') = false := by
    intro c hc
    rw [decide_eq_false_iff_not]; rintro rfl
    rcases List.mem_append.1 hc with hc | hc
    · exact absurd hc (by decide)
    · exact hn hc
  obtain ⟨x, xs, hx⟩ := List.exists_cons_of_ne_nil (splitAt1_ne_nil (fun c => decide (c = '{')) (commaList ls ++ '}' :: more))
  have hC : (splitAt1 (fun c => decide (c = '{')) ("@attribute ".toList ++ (name ++ ('{' :: (commaList ls ++ '}' :: more)))))[1]? = some x := by
    rw [e2, splitAt1_append hpre (by simp), hx]; rfl
  have hD : (splitAt1 (fun c => decide (c = '}')) x).headD [] = commaList ls := by
    -- the first piece before `{` still contains the closing brace
    have hcl : ∀ c ∈ commaList ls, decide (c = '}') = false := by
      intro c hc
      rw [decide_eq_false_iff_not]; rintro rfl
      exact hnot '}' (by decide) (fun t ht => (isLabel_not (hlab t ht)).2.2.1) hc
    have hpx : ∃ y, x = commaList ls ++ '}' :: y := by
      have hop : ∀ c ∈ commaList ls ++ ['}'], decide (c = '{') = false := by
        intro c hc
        rw [decide_eq_false_iff_not]; rintro rfl
        rcases List.mem_append.1 hc with hc | hc
        · exact hnot '{' (by decide) (fun t ht => (isLabel_not (hlab t ht)).2.1) hc
        · simp at hc
      have key : ∀ (u : Str), (∀ c ∈ u, decide (c = '{') = false) → ∀ v : Str, ∃ y ys, splitAt1 (fun c => decide (c = '{')) (u ++ v) = (u ++ y) :: ys := by
        intro u hu v
        induction u with
        | nil => obtain ⟨y, ys, hy⟩ := List.exists_cons_of_ne_nil (splitAt1_ne_nil (fun c => decide (c = '{')) v); exact ⟨y, ys, hy⟩
        | cons a u ih =>
          obtain ⟨y, ys, hy⟩ := ih fun c hc => hu c (by simp [hc])
          exact ⟨y, ys, by rw [List.cons_append, splitAt1, if_neg (by rw [hu a (by simp)]; decide), hy]; rfl⟩
      obtain ⟨y, ys, hy⟩ := key _ hop more
      have : commaList ls ++ ['}'] ++ more = commaList ls ++ '}' :: more := by simp
      rw [this, hx] at hy
      exact ⟨y, by rw [(List.cons.inj hy).1]; simp⟩
    obtain ⟨y, rfl⟩ := hpx
    exact (splitAt1_two hcl (by simp) y).2
  simp only [hs, if_true]
  rw [← e1] at hA
  rw [if_pos hA.1, if_pos (by rw [hA.2]; rfl), hC, Option.map_some, hD, splitAt1_commaList hne fun t ht => (isLabel_not (hlab t ht)).1]

theorem arffInstance_spec {decls : List (List Str)} {r : List Str} (hv : List.Forall₂ (fun ls t => t ∈ ls) decls r) (hlab : ∀ ls ∈ decls, ls.Nodup ∧ ∀ l ∈ ls, IsLabel l) (hne : decls ≠ []) :
    arffInstance decls (commaList r) = some ((labelCodes decls r).map decimal) := by
  have hlen := hv.length_eq
  have hr : r ≠ [] := by rintro rfl; exact hne (List.length_eq_zero_iff.1 (by simpa using hlen))
  have hcomma : ∀ t ∈ r, ',' ∉ t := by
    intro t ht
    obtain ⟨ls, hls, hm⟩ := forall₂_mem_right hv t ht
    exact (isLabel_not ((hlab ls hls).2 t hm)).1
  unfold arffInstance
  rw [splitAt1_commaList hr hcomma]
  have key : ∀ (ds : List (List Str)) (ts : List Str) (b : Nat), List.Forall₂ (fun ls t => t ∈ ls) ds ts → (∀ ls ∈ ds, ls.Nodup) → (∀ j, decls[b + j]? = ds[j]?) →
      (ts.zipIdx b).mapM (fun x => (decls[x.2]?).map fun cs => cs.zipIdx.foldl (fun v y => if x.1 = y.1 then itoa y.2 else v) x.1) = some ((labelCodes ds ts).map decimal) := by
    intro ds ts b H
    induction H generalizing b with
    | nil => intro _ _; rfl
    | @cons ls t ds ts hm _ ih =>
      intro hd hj
      rw [List.zipIdx_cons, List.mapM_cons]
      have h0 : decls[b]? = some ls := by simpa using hj 0
      rw [h0, ih (b + 1) (fun l hl => hd l (by simp [hl])) (fun j => by have := hj (j + 1); rw [show b + 1 + j = b + (j + 1) by omega, this]; rfl)]
      have he := encode_label (hd ls (by simp)) (t := t) 0 t
      rw [if_pos hm, Nat.zero_add, itoa_eq] at he
      simp only [Option.map_some, he]
      simp [labelCodes]
  exact key decls r 0 hv (fun ls h => (hlab ls h).1) (by simp)

/-- The row that is written: the last value twice. -/
def doubledLast (vs : List Int) : List Int := vs ++ vs.getLast?.toList

theorem doubledLast_text (vs : List Int) (hne : vs ≠ []) : (vs.map decimal).flatMap (fun v => v ++ [' ']) ++ (((vs.map decimal).getLast?).getD []) ++ [' ', '\n'] = pixelText (doubledLast vs) ++ ['\n'] := by
  rw [doubledLast, pixelText, List.flatMap_append, List.getLast?_map]
  obtain ⟨v, hv⟩ : ∃ v, vs.getLast? = some v := by
    cases h : vs.getLast? with
    | none => exact absurd (List.getLast?_eq_none_iff.1 h) hne
    | some v => exact ⟨v, rfl⟩
  simp [hv, List.flatMap_map]

/-- **C90.** A strictly written file of nominal attributes, whose values are declared, is compiled to a data file from which `ParseData` reads: a variable for each attribute, in order,
with as many categories as there are labels, and for each line the positions of its values. That the last value of each line is written twice does no harm. -/
theorem C90_arffToData_partial {decls : List (List Str)} {rows : List (List Str)} {text : Str} (h : NominalFile decls rows text) (hd : decls ≠ []) (hr : rows ≠ [])
    (hsmall : ∀ ls ∈ decls, ls.length < 2 ^ 63) (hwide : (decls.length + 1) * 21 < 65536) :
    ∃ out, arffToData text = some out ∧
      parseData out = some (decls.zipIdx.map (fun x => ((x.2 : Int), (x.1.length : Int))), rows.map fun r => lineInstance (labelCodes decls r)) := by
  obtain ⟨pre, head, hpre, hhead, hshort, rfl⟩ := h.ex
  have hchars : ∀ l ∈ pre ++ (head ++ "@data".toList :: rows.map commaList), '\n' ∉ l ∧ '\r' ∉ l := by
    intro l hl
    rcases List.mem_append.1 hl with hl | hl
    · exact (hpre l hl).2.2
    rcases List.mem_append.1 hl with hl | hl
    · obtain ⟨ls, hls, name, more, -, h1, h2, h3, h4, rfl⟩ := forall₂_mem_right hhead l hl
      have : ∀ c, (c = '\n' ∨ c = '\r') → c ∉ commaList ls := by
        intro c hc hm
        rcases commaList_mem hm with h' | ⟨t, ht, h'⟩
        · rcases hc with rfl | rfl <;> exact absurd h' (by decide)
        · have := isLabel_not ((h.labels ls hls).2.2 t ht)
          rcases hc with rfl | rfl
          · exact this.2.2.2.1 h'
          · exact this.2.2.2.2 h'
      have a1 := this '\n' (Or.inl rfl)
      have a2 := this '\r' (Or.inr rfl)
      simp [h1, h2, h3, h4, a1, a2]
    · rcases List.mem_cons.1 hl with rfl | hl
      · simp
      · obtain ⟨r, hrr, rfl⟩ := List.mem_map.1 hl
        have : ∀ c, (c = '\n' ∨ c = '\r') → c ∉ commaList r := by
          intro c hc hm
          rcases commaList_mem hm with h' | ⟨t, ht, h'⟩
          · rcases hc with rfl | rfl <;> exact absurd h' (by decide)
          · obtain ⟨ls, hls, hm'⟩ := forall₂_mem_right (h.values r hrr) t ht
            have := isLabel_not ((h.labels ls hls).2.2 t hm')
            rcases hc with rfl | rfl
            · exact this.2.2.2.1 h'
            · exact this.2.2.2.2 h'
        exact ⟨this _ (Or.inl rfl), this _ (Or.inr rfl)⟩
  have hfold : (pre ++ (head ++ "@data".toList :: rows.map commaList)).foldlM arffDataLine (false, [], []) = some (true, decls, rows.map fun r => (labelCodes decls r).map decimal) := by
    rw [List.foldlM_append]
    have h1 : pre.foldlM arffDataLine (false, [], []) = some (false, [], []) := by
      clear hshort hchars h
      induction pre with
      | nil => rfl
      | cons l pre ih =>
        rw [List.foldlM_cons, arffDataLine_skip rfl (hpre l (by simp)).1 (hpre l (by simp)).2.1]
        exact ih fun l hl => hpre l (by simp [hl])
    rw [h1]
    show List.foldlM arffDataLine _ (head ++ "@data".toList :: rows.map commaList) = _
    rw [List.foldlM_append]
    have h2 : ∀ (ds : List (List Str)) (hs : List Str) (acc : List (List Str)), List.Forall₂ NominalLine ds hs → (∀ ls ∈ ds, ls ≠ [] ∧ ∀ l ∈ ls, IsLabel l) →
        hs.foldlM arffDataLine (false, acc, []) = some (false, acc ++ ds, []) := by
      intro ds hs acc H
      induction H generalizing acc with
      | nil => intro _; simp
      | cons hl _ ih =>
        intro hL
        rw [List.foldlM_cons, arffDataLine_attr rfl hl (hL _ (by simp)).1 (hL _ (by simp)).2]
        show List.foldlM arffDataLine _ _ = _
        rw [ih _ fun ls hls => hL ls (by simp [hls])]
        simp
    rw [h2 decls head [] hhead fun ls hls => ⟨(h.labels ls hls).1, (h.labels ls hls).2.2⟩]
    show List.foldlM arffDataLine (false, [] ++ decls, []) ("@data".toList :: rows.map commaList) = _
    rw [List.foldlM_cons]
    have h3 : arffDataLine (false, [] ++ decls, []) "@data".toList = some (true, decls, []) := rfl
    rw [h3]
    show List.foldlM arffDataLine (true, decls, []) (rows.map commaList) = _
    have h4 : ∀ (rs : List (List Str)) (acc : List (List Str)), (∀ r ∈ rs, List.Forall₂ (fun ls t => t ∈ ls) decls r) →
        (rs.map commaList).foldlM arffDataLine (true, decls, acc) = some (true, decls, acc ++ rs.map fun r => (labelCodes decls r).map decimal) := by
      intro rs
      induction rs with
      | nil => intro acc _; simp
      | cons r rs ih =>
        intro acc H
        rw [List.map_cons, List.foldlM_cons]
        have : arffDataLine (true, decls, acc) (commaList r) = some (true, decls, acc ++ [(labelCodes decls r).map decimal]) := by
          unfold arffDataLine
          simp only [Bool.true_eq_false, if_false]
          rw [arffInstance_spec (H r (by simp)) (fun ls hls => ⟨(h.labels ls hls).2.1, (h.labels ls hls).2.2⟩) hd]
          rfl
        rw [this]
        show List.foldlM arffDataLine _ _ = _
        rw [ih _ fun r hr => H r (by simp [hr])]
        simp
    rw [h4 rows [] h.values, List.nil_append]
  have hlenC : ∀ r ∈ rows, (labelCodes decls r).length = decls.length := by
    intro r hrr
    have := (h.values r hrr).length_eq
    simp [labelCodes, ← this]
  have hneC : ∀ r ∈ rows, labelCodes decls r ≠ [] := by
    intro r hrr he
    have := hlenC r hrr
    rw [he] at this
    exact hd (List.length_eq_zero_iff.1 this.symm)
  refine ⟨_, by unfold arffToData; rw [scanLines_unlines hchars, takeWhile_all' fun l hl => by simpa using hshort l hl, hfold, Option.map_some], ?_⟩
  set vars : List (Int × Int) := decls.zipIdx.map (fun x => ((x.2 : Int), (x.1.length : Int))) with hvars
  set rows' := rows.map fun r => doubledLast (labelCodes decls r) with hrows'
  have hout : decls.zipIdx.flatMap (fun x => declText ((x.2 : Int), (x.1.length : Int))) ++
      (rows.map fun r => (labelCodes decls r).map decimal).flatMap (fun inst => inst.flatMap (fun v => v ++ [' ']) ++ (inst.getLast?.getD []) ++ [' ', '\n']) =
      dataText vars (rows'.map pixelText) := by
    unfold dataText
    have e1 : decls.zipIdx.flatMap (fun x => declText ((x.2 : Int), (x.1.length : Int))) = vars.flatMap declText := by rw [hvars, List.flatMap_map]
    rw [e1, declText_eq]
    unfold unlines
    rw [List.flatMap_append]
    congr 1
    rw [hrows', List.map_map, List.flatMap_map, List.flatMap_map]
    refine List.flatMap_congr fun r hrr => ?_
    exact doubledLast_text _ (hneC r hrr)
  show parseData (decls.zipIdx.flatMap (fun x => declText ((x.2 : Int), (x.1.length : Int))) ++ _) = _
  rw [hout]
  have hrange : ∀ r ∈ rows, ∀ v ∈ doubledLast (labelCodes decls r), Int64Range v := by
    intro r hrr v hv
    have hv' : v ∈ labelCodes decls r := by
      unfold doubledLast at hv
      rcases List.mem_append.1 hv with hv | hv
      · exact hv
      · exact List.mem_of_getLast? (by simpa using hv)
    unfold labelCodes at hv'
    obtain ⟨i, hi⟩ := List.mem_iff_getElem?.1 hv'
    rw [List.getElem?_zipWith] at hi
    cases h1 : decls[i]? with
    | none => simp [h1] at hi
    | some ls =>
      cases h2 : r[i]? with
      | none => simp [h1, h2] at hi
      | some t =>
        simp [h1, h2] at hi
        have hls := List.mem_of_getElem? h1
        have := hsmall ls hls
        have hidx := List.idxOf_le_length (a := t) (l := ls)
        subst hi
        constructor
        · omega
        · have : ls.idxOf t < 2 ^ 63 := by omega
          exact_mod_cast this
  have hlend : ∀ r ∈ rows, (doubledLast (labelCodes decls r)).length ≤ decls.length + 1 := by
    intro r hrr
    unfold doubledLast
    rw [List.length_append, hlenC r hrr]
    cases (labelCodes decls r).getLast? <;> simp
  have hfile : DataFile vars rows' (rows'.map pixelText) := by
    refine ⟨?_, ?_, ?_, ?_⟩
    · rw [hvars, List.map_map]
      have : ((Prod.fst : Int × Int → Int) ∘ fun (x : List Str × Nat) => ((x.2 : Int), (x.1.length : Int))) = (fun n : Nat => (n : Int)) ∘ Prod.snd := rfl
      rw [this, ← List.map_map]
      refine List.Nodup.map (fun a b hab => by exact_mod_cast hab) ?_
      rw [List.zipIdx_map_snd]
      exact List.nodup_range'
    · intro d hdm
      obtain ⟨x, hx, rfl⟩ := List.mem_map.1 hdm
      have hx1 : x.1 ∈ decls := List.fst_mem_of_mem_zipIdx hx
      have hx2 : x.2 < decls.length := by
        have := List.snd_lt_of_mem_zipIdx hx; simpa using this
      have := hsmall _ hx1
      refine ⟨⟨by simp, by simp; omega⟩, ⟨by simp, ?_⟩⟩
      show ((x.1.length : Nat) : Int) < 2 ^ 63
      exact_mod_cast this
    · rw [List.forall₂_map_right_iff, List.forall₂_same]
      intro r hrm
      obtain ⟨r', hr', rfl⟩ := List.mem_map.1 hrm
      exact writesRow_pixels (by unfold doubledLast; simp [hneC r' hr'])
    · intro r hrm v hv
      obtain ⟨r', hr', rfl⟩ := List.mem_map.1 hrm
      exact hrange r' hr' v hv
  have hvl : vars.length = decls.length := by simp [hvars]
  rw [C84_parseData_partial hfile (by simp [hrows', hr]) ?_ ?_]
  · congr 2
    rw [hrows', List.map_map]
    refine List.map_congr_left fun r hrr => ?_
    show lineInstance ((doubledLast (labelCodes decls r)).take vars.length) = _
    rw [hvl, doubledLast, List.take_append_of_le_length (by rw [hlenC r hrr]), List.take_of_length_le (by rw [hlenC r hrr])]
  · intro r hrm
    obtain ⟨r', hr', rfl⟩ := List.mem_map.1 hrm
    rw [hvl, doubledLast, List.length_append, hlenC r' hr']; omega
  · intro l hl
    rcases List.mem_append.1 hl with hl | hl
    · obtain ⟨d, hdm, rfl⟩ := List.mem_map.1 hl
      exact declLine_short (hfile.declRange d hdm)
    · obtain ⟨r, hrm, rfl⟩ := List.mem_map.1 hl
      obtain ⟨r', hr', rfl⟩ := List.mem_map.1 hrm
      have hlen : ∀ vs : List Int, (∀ v ∈ vs, Int64Range v) → (pixelText vs).length ≤ vs.length * 21 := by
        intro vs
        induction vs with
        | nil => intro _; simp [pixelText]
        | cons v vs ih =>
          intro H
          have e : pixelText (v :: vs) = decimal v ++ ' ' :: pixelText vs := by simp [pixelText]
          have h1 := decimal_length (H v (by simp))
          have h2 := ih fun v hv => H v (by simp [hv])
          rw [e, List.length_append, List.length_cons, List.length_cons]; omega
      have h1 := hlen _ (hrange r' hr')
      have h2 := hlend r' hr'
      have h3 : (doubledLast (labelCodes decls r')).length * 21 ≤ (decls.length + 1) * 21 := Nat.mul_le_mul_right _ h2
      show (pixelText (doubledLast (labelCodes decls r'))).length < 65536
      omega

/-- A blank after a comma in the definition becomes part of the label: the value is then not found, written as it stands, and `ParseData` panics. `ParseArff` reads such files. -/
theorem C90_blank_in_labels : arffToData "@relation r\n@attribute a {x, y}\n@data\ny\n".toList = some "var 0 2\ny y \n".toList ∧ parseData "var 0 2\ny y \n".toList = none := by
  constructor <;> decide +kernel

/-- So does an undeclared value. If it is a number, no panic occurs: it is read as the code of another value. -/
theorem C90_undeclared : arffToData "@relation r\n@attribute a {1,0}\n@data\n1\n".toList = some "var 0 2\n0 0 \n".toList ∧
    arffToData "@relation r\n@attribute a {x,y}\n@data\n0\n".toList = some "var 0 2\n0 0 \n".toList := by
  constructor <;> decide +kernel

/-- Keywords in upper case are not understood, and neither is an attribute of another type: the first file has no variables and no data, the second ends in a panic. -/
theorem C90_keywords : arffToData "@RELATION r\n@ATTRIBUTE a {x,y}\n@DATA\nx\n".toList = some [] ∧ arffToData "@relation r\n@attribute a numeric\n@data\n1\n".toList = none := by
  constructor <;> decide +kernel

/-- An empty line at the end makes the compiled file unreadable. -/
theorem C90_blank_line : arffToData "@relation r\n@attribute a {x,y}\n@data\nx\n\n".toList = some "var 0 2\n0 0 \n  \n".toList ∧ parseData "var 0 2\n0 0 \n  \n".toList = none := by
  constructor <;> decide +kernel

/-- The hypotheses of `C90_arffToData_partial` can be met. -/
example : ∃ out, arffToData "% c\n@relation r\n@attribute a {x,y}\n@attribute b {u,v,w}\n@data\ny,w\nx,u\n".toList = some out ∧
    parseData out = some ([(0, 2), (1, 3)], [lineInstance [1, 2], lineInstance [0, 0]]) := by
  have hl : ∀ l ∈ ["x".toList, "y".toList, "u".toList, "v".toList, "w".toList], IsLabel l := by
    intro l hl
    simp only [List.mem_cons, List.not_mem_nil, or_false] at hl
    rcases hl with rfl | rfl | rfl | rfl | rfl <;> exact ⟨by decide, by simp [IsSpace]⟩
  have hf : NominalFile [["x".toList, "y".toList], ["u".toList, "v".toList, "w".toList]] [["y".toList, "w".toList], ["x".toList, "u".toList]]
      "% c\n@relation r\n@attribute a {x,y}\n@attribute b {u,v,w}\n@data\ny,w\nx,u\n".toList := by
    refine ⟨?_, ?_, ["% c".toList, "@relation r".toList], ["@attribute a {x,y}".toList, "@attribute b {u,v,w}".toList], ?_, ?_, ?_, by decide +kernel⟩
    · intro ls hls
      simp only [List.mem_cons, List.not_mem_nil, or_false] at hls
      rcases hls with rfl | rfl
      · exact ⟨by decide, by decide, fun l h => hl l (by simp at h ⊢; tauto)⟩
      · exact ⟨by decide, by decide, fun l h => hl l (by simp at h ⊢; tauto)⟩
    · intro r hr
      simp only [List.mem_cons, List.not_mem_nil, or_false] at hr
      rcases hr with rfl | rfl <;> simp
    · intro l hl
      simp only [List.mem_cons, List.not_mem_nil, or_false] at hl
      rcases hl with rfl | rfl <;> exact ⟨by decide, by decide, by decide, by decide⟩
    · exact .cons ⟨"a ".toList, [], by decide, by decide, by decide, by simp, by simp, by decide⟩ (.cons ⟨"b ".toList, [], by decide, by decide, by decide, by simp, by simp, by decide⟩ .nil)
    · intro l hl
      simp only [List.cons_append, List.nil_append, List.map_cons, List.map_nil, List.mem_cons, List.not_mem_nil, or_false] at hl
      rcases hl with rfl | rfl | rfl | rfl | rfl | rfl | rfl <;> simp [commaList]
  obtain ⟨out, h1, h2⟩ := C90_arffToData_partial hf (by simp) (by simp) (by simp) (by simp)
  refine ⟨out, h1, h2.trans ?_⟩
  have e1 : labelCodes [["x".toList, "y".toList], ["u".toList, "v".toList, "w".toList]] ["y".toList, "w".toList] = [1, 2] := by decide +kernel
  have e2 : labelCodes [["x".toList, "y".toList], ["u".toList, "v".toList, "w".toList]] ["x".toList, "u".toList] = [0, 0] := by decide +kernel
  simp only [List.map_cons, List.map_nil, e1, e2]
  rfl

end Gospn
