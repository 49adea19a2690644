/-
Where random choices come from: sys/rand.go (`sys.Random`, behind a lock), math/rand's default source, which data/manipulate.go and io/input.go use, and the
source io/input.go keeps to itself.

A source of math/rand is a state machine: `init` is `rand.New(rand.NewSource(seed))`, `next` one call of Intn, Float64, NormFloat64 or Perm. Calls behind the lock
are atomic, so an execution with several goroutines is one sequence of calls.
-/
import Verif.Model.Input

namespace Gospn

/-- math/rand: the calls (`intn n`, `float64`, `normFloat64`, `perm n`). -/
inductive RandReq
  | intn (n : Nat)
  | float64
  | norm
  | perm (n : Nat)
  deriving DecidableEq

/-- math/rand: sources with states in `σ` and results in `V`. -/
structure RandGen (σ V : Type) where
  init : Int → σ
  next : σ → RandReq → V × σ
  /-- The result of `intn`, as a number. -/
  toNat : V → Nat

variable {σ V : Type}

/-- The three sources: sys/rand.go:9-12 `seed` and `Random`, io/input.go:276-277 `glrand` (none: `glrseed < 0`), and the default source of math/rand. -/
structure Sources (σ : Type) where
  seed : Int
  random : σ
  glrand : Option σ
  dflt : σ

/-- The calls of a program: sys/rand.go:20-26 `RefreshRandom`, 28-47 `RandIntn` and the others, 50 `Seed`, a call of math/rand (data/manipulate.go:73, 124 `rand.Perm`), and
io/input.go:289 `ParsePartitionedData` on a file with this text. -/
inductive SeedOp (F : Type)
  | refresh (s : Int)
  | sys (q : RandReq)
  | seed
  | dflt (q : RandReq)
  | parse (text : Str) (p : F) (rseed : Int)

/-- What a call returns. -/
inductive SeedObs (V : Type)
  | unit
  | sys (v : V)
  | seed (s : Int)
  | dflt (v : V)
  | parsed (r : Option (List (Int × Int) × List VarSet × List VarSet × List Int))

/-- io/input.go:311-316: draw from a source until a row comes out that has not been drawn; `none` if `fuel` draws do not do. -/
def drawRowG (g : RandGen σ V) (n : Nat) (taken : List Nat) : Nat → σ → Option (Nat × σ)
  | 0, _ => none
  | fuel + 1, st =>
    if g.toNat (g.next st (.intn n)).1 ∈ taken then drawRowG g n taken fuel (g.next st (.intn n)).2
    else some (g.toNat (g.next st (.intn n)).1, (g.next st (.intn n)).2)

/-- io/input.go:310-318: `m` rows. -/
def drawRowsG (g : RandGen σ V) (n fuel : Nat) : Nat → σ → List Nat → Option (List Nat × σ)
  | 0, st, taken => some (taken, st)
  | m + 1, st, taken => (drawRowG g n taken fuel st).bind fun r => drawRowsG g n fuel m r.2 (taken ++ [r.1])

/-- io/input.go:303-334 with a source: the result, and the source afterwards. -/
def partitionFrom (g : RandGen σ V) (fuel : Nat) (vars : List (Int × Int)) (fdata : List VarSet) (m : Int) (st : σ) :
    Option ((List (Int × Int) × List VarSet × List VarSet × List Int) × σ) :=
  if m < 0 then none else
  (drawRowsG g fdata.length fuel m.toNat st []).bind fun d =>
  (d.1.mapM fun l => fdata[l]?).bind fun test =>
  (deleteRows fdata (d.1.mergeSort (fun a b => decide (a ≤ b)))).map fun train =>
  ((vars, train, test.map (fun t => t.del ((vars.length : Int) - 1)), test.map (fun t => t.get ((vars.length : Int) - 1))), d.2)

/-- io/input.go:289-335 `ParsePartitionedData` from a source. -/
def parseFrom {F : Type} [GoFloat F] (g : RandGen σ V) (fuel : Nat) (text : Str) (p : F) (st : σ) : Option ((List (Int × Int) × List VarSet × List VarSet × List Int) × σ) :=
  (parseData text).bind fun r =>
  partitionFrom g fuel r.1 r.2 (GoFloat.toInt (GoFloat.mul (GoFloat.sub (GoFloat.ofInt 1) p) (GoFloat.ofInt (r.2.length : Nat)))) st

/-- io/input.go:296-300: the source for a seed that is not negative; it is made once and for all. -/
def glSource (g : RandGen σ V) (gl : Option σ) (rseed : Int) : σ :=
  match gl with
  | none => g.init rseed
  | some st => st

/-- One call. A call that panics leaves the sources as they are, but for the making of `glrand`. -/
def seedStep {F : Type} [GoFloat F] (g : RandGen σ V) (fuel : Nat) (S : Sources σ) : SeedOp F → SeedObs V × Sources σ
  | .refresh s => (.unit, { S with seed := s, random := g.init s })
  | .sys q => (.sys (g.next S.random q).1, { S with random := (g.next S.random q).2 })
  | .seed => (.seed S.seed, S)
  | .dflt q => (.dflt (g.next S.dflt q).1, { S with dflt := (g.next S.dflt q).2 })
  | .parse text p rseed =>
    if rseed < 0 then
      match parseFrom g fuel text p S.dflt with
      | none => (.parsed none, S)
      | some r => (.parsed (some r.1), { S with dflt := r.2 })
    else
      match parseFrom g fuel text p (glSource g S.glrand rseed) with
      | none => (.parsed none, { S with glrand := some (glSource g S.glrand rseed) })
      | some r => (.parsed (some r.1), { S with glrand := some r.2 })

/-- A sequence of calls. -/
def seedRun {F : Type} [GoFloat F] (g : RandGen σ V) (fuel : Nat) : Sources σ → List (SeedOp F) → List (SeedObs V) × Sources σ
  | S, [] => ([], S)
  | S, op :: ops =>
    ((seedStep g fuel S op).1 :: (seedRun g fuel (seedStep g fuel S op).2 ops).1, (seedRun g fuel (seedStep g fuel S op).2 ops).2)

end Gospn
