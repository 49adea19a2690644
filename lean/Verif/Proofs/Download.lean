import Verif.Model.Download
import Verif.Proofs.Input
set_option linter.unusedSectionVars false
set_option linter.unusedSimpArgs false
namespace Gospn
open Spec

theorem getLastD_cons_ne {α : Type} (a d : α) {l : List α} (h : l ≠ []) : (a :: l).getLastD d = l.getLastD d := by
  cases l with
  | nil => exact absurd rfl h
  | cons b l => simp [List.getLastD]

theorem lastElem_append : ∀ (q s : Str), (∀ c ∈ s, c ≠ '/') → lastElem (q ++ s) = lastElem q ++ s := by
  intro q s hs
  unfold lastElem
  have hs' : splitAt1 (· = '/') s = [s] := splitAt1_self (t := s) fun c hc => by simpa using hs c hc
  induction q with
  | nil => rw [List.nil_append, hs']; rfl
  | cons c q ih =>
    rw [List.cons_append, splitAt1, splitAt1]
    by_cases hc : c = '/'
    · simp only [hc, decide_true, if_true]
      rw [getLastD_cons_ne _ _ (splitAt1_ne_nil _ _), getLastD_cons_ne _ _ (splitAt1_ne_nil _ _), ih]
    · simp only [hc, decide_false, Bool.false_eq_true, if_false]
      have key : ∀ L : List Str, L ≠ [] → (consFirst c L).getLastD [] = if L.length = 1 then c :: L.getLastD [] else L.getLastD [] := by
        intro L hL
        match L, hL with
        | [x], _ => rfl
        | x :: y :: L, _ => simp [consFirst, List.getLastD]
      have hlen : ∀ q : Str, (splitAt1 (· = '/') (q ++ s)).length = (splitAt1 (· = '/') q).length := by
        intro q
        induction q with
        | nil => rw [List.nil_append, hs']; rfl
        | cons d q ihq =>
          rw [List.cons_append, splitAt1, splitAt1]
          have hcf : ∀ L : List Str, L ≠ [] → (consFirst d L).length = L.length := by
            intro L hL
            match L, hL with
            | x :: L, _ => rfl
          split
          · simp [ihq]
          · rw [hcf _ (splitAt1_ne_nil _ _), hcf _ (splitAt1_ne_nil _ _), ihq]
      rw [key _ (splitAt1_ne_nil _ _), key _ (splitAt1_ne_nil _ _), hlen, ih]
      split <;> simp

theorem target_data (cwd u d : Str) : targetFile cwd u (datasetPath ++ d ++ ".data".toList) = cwd ++ '/' :: (datasetPath ++ d ++ ".data".toList) := by
  have hp : getPath cwd (datasetPath ++ d ++ ".data".toList) = cwd ++ '/' :: (datasetPath ++ d ++ ".data".toList) := by
    unfold getPath datasetPath
    rw [if_neg (by simp)]
  unfold targetFile
  simp only [hp]
  rw [if_pos]
  have e : cwd ++ '/' :: (datasetPath ++ d ++ ".data".toList) = (cwd ++ '/' :: (datasetPath ++ d)) ++ ".data".toList := by simp
  rw [e, lastElem_append _ _ (by decide)]
  simp

theorem getPath_data (cwd d : Str) : getPath cwd (datasetPath ++ d ++ ".data".toList) = cwd ++ '/' :: (datasetPath ++ d ++ ".data".toList) := by
  unfold getPath datasetPath
  rw [if_neg (by simp)]

theorem mnistPath_eq (kind : Str) (n b : Int) : mnistPath kind n b = datasetPath ++ ("mnist_".toList ++ kind ++ '_' :: (itoa b ++ '_' :: itoa n)) ++ ".data".toList := by
  unfold mnistPath mnistName
  simp

/-- A download without override leaves every existing file as it is. -/
theorem download_kept (cwd : Str) (E : Env) (u p : Str) (fs : Files) (f t : Str) (h : fs f = some t) : (download cwd E u p false fs).1 f = some t := by
  unfold download
  simp only
  split
  · exact h
  · split
    · exact h
    · rename_i hn
      split
      · exact h
      · have hne : f ≠ targetFile cwd u p := by
          rintro rfl
          rw [h] at hn
          simp at hn
        split <;> simp [Files.put, hne, h]

theorem parseData_nil : parseData [] = some ([], [VarSet.empty]) := by
  have : scanLines [] = [] := by simp [scanLines, splitAt1]
  unfold parseData
  rw [this]
  simp [readVars, readLines, readLine, matrixToData]

/-- A line that does not define a variable, alone in a file, is read as one instance of no variables. -/
theorem parseData_page {s : Str} (h1 : s ≠ []) (h2 : s.head? ≠ some 'v') (h3 : '\n' ∉ s ∧ '\r' ∉ s) (h4 : s.length < 65536) : parseData s = some ([], [VarSet.empty]) := by
  have : scanLines s = [s] := by
    unfold scanLines
    rw [splitAt1_self (t := s) fun c hc => by simp; rintro rfl; exact h3.1 hc]
    have : dropCR s = s := by
      unfold dropCR
      rw [if_neg]
      intro h
      exact h3.2 (List.mem_of_getLast? h)
    simp [h1, h4, this]
  unfold parseData
  rw [this]
  match s, h1, h2 with
  | c :: s, _, h2 =>
    simp only [List.head?_cons, ne_eq, Option.some.injEq] at h2
    simp [readVars, h2, readLines, readLine, matrixToData]

end Gospn
