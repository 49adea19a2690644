/-
Logging: sys/print.go.

`Verbose` is a variable of the package that programs set. What fmt makes of a format and its arguments is the text given. Creating a file either succeeds or fails.
-/
import Verif.Model.Text

namespace Gospn

/-- Where text can go. -/
inductive Sink
  | stdout
  | file (name : Str)
  deriving DecidableEq

/-- sys/print.go:8-10 `fout`, sys/vars.go `Verbose`, the files created, and what was written where, oldest first. -/
structure LogState where
  fout : Sink
  verbose : Bool
  created : List Str
  written : List (Sink × Str)

/-- The calls, and assignments to `Verbose`. `setLog` says whether the file can be created. -/
inductive LogOp
  | setLog (name : Str) (ok : Bool)
  | verbose (b : Bool)
  | printf (text : Str)
  | println (text : Str)

/-- sys/print.go:14-21 `SetLogFile`. -/
def setLogFile (L : LogState) (name : Str) (ok : Bool) : LogState :=
  if name = [] then { L with fout := .stdout }
  else if ok then { L with created := L.created ++ [name] } else L

/-- sys/print.go:30-39 `Printf`. -/
def sysPrintf (L : LogState) (text : Str) : LogState :=
  if !L.verbose then L else { L with written := L.written ++ [(L.fout, text)] }

/-- sys/print.go:42-46 `Println`. -/
def sysPrintln (L : LogState) (text : Str) : LogState :=
  if L.verbose then { L with written := L.written ++ [(L.fout, text ++ ['\n'])] } else L

def logStep (L : LogState) : LogOp → LogState
  | .setLog name ok => setLogFile L name ok
  | .verbose b => { L with verbose := b }
  | .printf t => sysPrintf L t
  | .println t => sysPrintln L t

/-- The state when a program starts: sys/print.go:9, sys/vars.go:7. -/
def logStart : LogState := ⟨.stdout, false, [], []⟩

def logRun (L : LogState) (ops : List LogOp) : LogState := ops.foldl logStep L

end Gospn
