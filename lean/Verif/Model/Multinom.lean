import Verif.Model.Spn
/-
Model of the constructors of multinomial leaves (/repo/spn/multinom.go).
-/
namespace Gospn
open GoFloat
variable {F : Type} [GoFloat F]

/-- spn/multinom.go:18-27 `computeMode`. -/
def computeMode (pr : List F) : Nat × F :=
  pr.zipIdx.foldl (fun (i, m) (p, j) => if lt m p then (j, p) else (i, m)) (0, ofInt 0)

/-- The loop of spn/multinom.go:43-59 and 81-97. The state is `m`, `mi` and the first `nmi` entries of `miv`. -/
def modeScan (dist : List F) : F × Nat × List Nat :=
  dist.zipIdx.foldl (fun (m, mi, miv) (d, i) => if lt m d then (d, i, [i]) else if eq d m then (m, mi, miv ++ [i]) else (m, mi, miv)) (ofInt (-1), 0, [])

/-- spn/multinom.go:60-63, 98-102: `rand n` is what `sys.RandIntn(n)` returns. `none`: index out of range. -/
def withMode (rand : Nat → Nat) (varid : Int) (dist : List F) : Option (Leaf F) :=
  let (m, mi, miv) := modeScan dist
  if miv.length > 1 then (miv[rand miv.length]?).map (fun i => .multinomial [varid] varid dist i m) else some (.multinomial [varid] varid dist mi m)

/-- spn/multinom.go:41-64 `NewMultinomial`. -/
def newMultinomial (rand : Nat → Nat) (varid : Int) (dist : List F) : Option (Leaf F) := withMode rand varid dist

/-- spn/multinom.go:70-79, 110-119: the smoothed relative frequencies. -/
def smoothed (counts : List Int) : List F :=
  let s := counts.foldl (fun s c => add s (add (ofInt 1) (ofInt c))) (ofInt 0)
  counts.map (fun c => div (ofInt (1 + c)) s)

/-- spn/multinom.go:67-103 `NewCountingMultinomial`. -/
def newCountingMultinomial (rand : Nat → Nat) (varid : Int) (counts : List Int) : Option (Leaf F) := withMode rand varid (smoothed counts)

/-- spn/multinom.go:107-132 `NewScopedCountingMultinomial`: its loop (121-129) is that of `computeMode`. -/
def newScopedCountingMultinomial (varid : Int) (esc : List Int) (counts : List Int) : Leaf F :=
  .multinomial esc varid (smoothed counts) (computeMode (smoothed counts : List F)).1 (computeMode (smoothed counts : List F)).2

/-- spn/multinom.go:136-144 `NewEmptyMultinomial`; `pr[0]` panics if `m` is 0. -/
def newEmptyMultinomial (varid : Int) (m : Nat) : Option (Leaf F) :=
  let pr : List F := List.replicate m (div (ofInt 1) (ofInt m))
  pr[0]?.map (fun p => .multinomial [varid] varid pr 0 p)

end Gospn
