/-
C118: what logging writes, and where.
-/
import Verif.Model.SysLog
import Mathlib.Data.List.Basic

set_option linter.unusedSectionVars false
set_option linter.unusedSimpArgs false

namespace Gospn

/-- The text that should be written by a sequence of calls: that of the printing calls made while `Verbose` is set, in order; for each, the name of the last log file
asked for, if any (no name: standard output). -/
def Spec.logged : Bool → Str → List LogOp → List (Str × Str)
  | _, _, [] => []
  | v, _, .setLog n _ :: ops => Spec.logged v n ops
  | _, f, .verbose b :: ops => Spec.logged b f ops
  | v, f, .printf t :: ops => (if v then [(f, t)] else []) ++ Spec.logged v f ops
  | v, f, .println t :: ops => (if v then [(f, t ++ ['\n'])] else []) ++ Spec.logged v f ops

open Spec

theorem logStep_fout (L : LogState) (op : LogOp) (h : L.fout = .stdout) : (logStep L op).fout = .stdout := by
  cases op with
  | setLog n ok =>
    simp only [logStep, setLogFile]
    split
    · rfl
    · split <;> exact h
  | verbose b => exact h
  | printf t => simp only [logStep, sysPrintf]; split <;> exact h
  | println t => simp only [logStep, sysPrintln]; split <;> exact h

/-- C118, part: whatever the calls, the text written is that of the printing calls made while `Verbose` is set, each once and in order. -/
theorem C118_text_partial : ∀ (ops : List LogOp) (L : LogState) (f : Str),
    (logRun L ops).written.map Prod.snd = L.written.map Prod.snd ++ (logged L.verbose f ops).map Prod.snd := by
  intro ops
  induction ops with
  | nil => intro L f; simp [logRun, logged]
  | cons op ops ih =>
    intro L f
    have hstep : logRun L (op :: ops) = logRun (logStep L op) ops := rfl
    rw [hstep]
    cases op with
    | setLog n ok =>
      rw [ih (logStep L (.setLog n ok)) n]
      have h1 : (logStep L (.setLog n ok)).written = L.written ∧ (logStep L (.setLog n ok)).verbose = L.verbose := by
        simp only [logStep, setLogFile]
        split
        · exact ⟨rfl, rfl⟩
        · split <;> exact ⟨rfl, rfl⟩
      rw [h1.1, h1.2]
      rfl
    | verbose b => exact ih _ f
    | printf t =>
      rw [ih _ f]
      cases hv : L.verbose <;> simp [logStep, sysPrintf, hv, logged]
    | println t =>
      rw [ih _ f]
      cases hv : L.verbose <;> simp [logStep, sysPrintln, hv, logged]

/-- C118, part: as long as no log file is asked for, all of it is written to standard output, as it should be. -/
theorem C118_stdout_partial (ops : List LogOp) (h : ∀ n ok, LogOp.setLog n ok ∈ ops → n = []) :
    (logRun logStart ops).written = (logged false [] ops).map fun e => (if e.1 = [] then Sink.stdout else Sink.file e.1, e.2) := by
  have gen : ∀ (ops : List LogOp) (L : LogState), (∀ n ok, LogOp.setLog n ok ∈ ops → n = []) → L.fout = .stdout →
      (logRun L ops).written = L.written ++ (logged L.verbose [] ops).map fun e => (if e.1 = [] then Sink.stdout else Sink.file e.1, e.2) := by
    intro ops
    induction ops with
    | nil => intro L _ _; simp [logRun, logged]
    | cons op ops ih =>
      intro L hn hf
      have hstep : logRun L (op :: ops) = logRun (logStep L op) ops := rfl
      have hn' : ∀ n ok, LogOp.setLog n ok ∈ ops → n = [] := fun n ok h => hn n ok (List.mem_cons_of_mem _ h)
      rw [hstep, ih _ hn' (logStep_fout L op hf)]
      cases op with
      | setLog n ok =>
        have : n = [] := hn n ok List.mem_cons_self
        subst this
        simp [logStep, setLogFile, logged]
      | verbose b => rfl
      | printf t => cases hv : L.verbose <;> simp [logStep, sysPrintf, hv, logged, hf]
      | println t => cases hv : L.verbose <;> simp [logStep, sysPrintln, hv, logged, hf]
  simpa [logStart] using gen ops logStart h rfl

/-- C118 fails for every log file: `SetLogFile` creates the file and leaves the output where it was. Whatever a program does, all that is ever logged goes to standard
output, and the log file is standard output; the files created stay empty. -/
theorem C118_refuted (ops : List LogOp) :
    (logRun logStart ops).fout = .stdout ∧ (∀ e ∈ (logRun logStart ops).written, e.1 = .stdout) ∧ ∀ name, ((logRun logStart ops).written.filter fun e => e.1 = .file name) = [] := by
  have gen : ∀ (ops : List LogOp) (L : LogState), L.fout = .stdout → (∀ e ∈ L.written, e.1 = .stdout) →
      (logRun L ops).fout = .stdout ∧ ∀ e ∈ (logRun L ops).written, e.1 = .stdout := by
    intro ops
    induction ops with
    | nil => intro L h1 h2; exact ⟨h1, h2⟩
    | cons op ops ih =>
      intro L h1 h2
      have hstep : logRun L (op :: ops) = logRun (logStep L op) ops := rfl
      rw [hstep]
      refine ih _ (logStep_fout L op h1) ?_
      intro e he
      cases op with
      | setLog n ok =>
        have : (logStep L (.setLog n ok)).written = L.written := by
          simp only [logStep, setLogFile]
          split
          · rfl
          · split <;> rfl
        rw [this] at he
        exact h2 e he
      | verbose b => exact h2 e he
      | printf t =>
        simp only [logStep, sysPrintf] at he
        split at he
        · exact h2 e he
        · rcases List.mem_append.1 he with he | he
          · exact h2 e he
          · simp at he; rw [he]; exact h1
      | println t =>
        simp only [logStep, sysPrintln] at he
        split at he
        · rcases List.mem_append.1 he with he | he
          · exact h2 e he
          · simp at he; rw [he]; exact h1
        · exact h2 e he
  obtain ⟨h1, h2⟩ := gen ops logStart rfl (by simp [logStart])
  refine ⟨h1, h2, fun name => List.filter_eq_nil_iff.2 fun e he => ?_⟩
  rw [h2 e he]
  simp

/-- A program that asks for a log file and logs a line: the file should hold the line, and standard output nothing. -/
theorem C118_refuted_witness : logged false [] [.verbose true, .setLog ['l'] true, .println ['x']] = [(['l'], ['x', '\n'])] ∧
    (logRun logStart [.verbose true, .setLog ['l'] true, .println ['x']]).written = [(.stdout, ['x', '\n'])] ∧
    (logRun logStart [.verbose true, .setLog ['l'] true, .println ['x']]).created = [['l']] := by decide

example : ∀ n ok, LogOp.setLog n ok ∈ [LogOp.verbose true, .setLog [] true, .printf ['a'], .verbose false, .println ['b']] → n = [] := by simp

end Gospn
