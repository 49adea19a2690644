/-
C117: what the seeds of random choices determine.
-/
import Verif.Model.Seeds
import Verif.Proofs.Log
import Mathlib.Data.List.Basic

set_option linter.unusedSectionVars false
set_option linter.unusedSimpArgs false

namespace Gospn
variable {σ V F : Type} [GoFloat F]

/-- The results that come from `sys`: the draws and the seed. -/
def Spec.fromSys : SeedObs V → Bool
  | .sys _ | .seed _ => true
  | _ => false

open Spec

/-- C117, part: after `RefreshRandom(s)` every draw from the package `sys`, and the seed it reports, depend on `s` and the later calls alone, whatever was drawn or
parsed before, and whatever comes in between from the other sources. -/
theorem C117_refresh_partial (g : RandGen σ V) (fuel : Nat) (S S' : Sources σ) (s : Int) (ops : List (SeedOp F)) :
    ((seedRun g fuel S (.refresh s :: ops)).1.filter fromSys) = ((seedRun g fuel S' (.refresh s :: ops)).1.filter fromSys) := by
  have gen : ∀ (ops : List (SeedOp F)) (S S' : Sources σ), S.random = S'.random → S.seed = S'.seed →
      ((seedRun g fuel S ops).1.filter fromSys) = ((seedRun g fuel S' ops).1.filter fromSys) := by
    intro ops
    induction ops with
    | nil => intros; rfl
    | cons op ops ih =>
      intro S S' hr hs
      simp only [seedRun]
      have hk : (seedStep g fuel S op).2.random = (seedStep g fuel S' op).2.random ∧ (seedStep g fuel S op).2.seed = (seedStep g fuel S' op).2.seed ∧
          ([(seedStep g fuel S op).1].filter fromSys) = ([(seedStep g fuel S' op).1].filter fromSys) := by
        cases op with
        | refresh t => exact ⟨rfl, rfl, rfl⟩
        | sys q => simp [seedStep, hr, hs]
        | seed => simp [seedStep, hr, hs]
        | dflt q => simp [seedStep, hr, hs, fromSys]
        | parse text p r =>
          have hS : ∀ S : Sources σ, (seedStep g fuel S (.parse text p r)).2.random = S.random ∧ (seedStep g fuel S (.parse text p r)).2.seed = S.seed ∧
              ([(seedStep g fuel S (.parse text p r)).1].filter fromSys) = [] := by
            intro S
            simp only [seedStep]
            split <;> split <;> exact ⟨rfl, rfl, rfl⟩
          rw [(hS S).1, (hS S').1, (hS S).2.1, (hS S').2.1, (hS S).2.2, (hS S').2.2]
          exact ⟨hr, hs, rfl⟩
      have e1 : ∀ (a : SeedObs V) (l : List (SeedObs V)), (a :: l).filter fromSys = [a].filter fromSys ++ l.filter fromSys := fun a l => by
        rw [← List.filter_append]; rfl
      rw [e1, e1 (seedStep g fuel S' op).1, hk.2.2, ih _ _ hk.1 hk.2.1]
  simp only [seedRun, seedStep]
  have := gen ops { S with seed := s, random := g.init s } { S' with seed := s, random := g.init s } rfl rfl
  simp only [List.filter_cons, fromSys]
  simpa using this

/-- C117, part: `Seed` reports the seed last given. -/
theorem C117_seed (g : RandGen σ V) (fuel : Nat) (S : Sources σ) (s : Int) : (seedRun (F := F) g fuel S [.refresh s, .seed]).1 = [.unit, .seed s] := rfl

/-- C117, part: the first `ParsePartitionedData` of a program with a seed that is not negative depends on the file, the proportion and the seed alone. -/
theorem C117_first_partial (g : RandGen σ V) (fuel : Nat) (S S' : Sources σ) (h : S.glrand = none) (h' : S'.glrand = none) (text : Str) (p : F) (rseed : Int)
    (hr : 0 ≤ rseed) : (seedStep g fuel S (.parse text p rseed)).1 = (seedStep g fuel S' (.parse text p rseed)).1 := by
  have hn : ¬ rseed < 0 := not_lt.2 hr
  simp only [seedStep, if_neg hn, h, h', glSource]
  split <;> rfl

/-- C117 fails for every later one: from the second on, the seed makes no difference at all. -/
theorem C117_later_refuted (g : RandGen σ V) (fuel : Nat) (S : Sources σ) (text text' : Str) (p p' : F) (r0 r r' : Int) (h0 : 0 ≤ r0) (hr : 0 ≤ r) (hr' : 0 ≤ r') :
    (seedStep g fuel (seedStep g fuel S (.parse text p r0)).2 (.parse text' p' r)).1 = (seedStep g fuel (seedStep g fuel S (.parse text p r0)).2 (.parse text' p' r')).1 := by
  have n0 : ¬ r0 < 0 := not_lt.2 h0
  have n1 : ¬ r < 0 := not_lt.2 hr
  have n2 : ¬ r' < 0 := not_lt.2 hr'
  have hg : ∃ st, (seedStep g fuel S (.parse text p r0)).2.glrand = some st := by
    simp only [seedStep, if_neg n0]
    split
    · exact ⟨_, rfl⟩
    · exact ⟨_, rfl⟩
  obtain ⟨st, hst⟩ := hg
  generalize (seedStep g fuel S (.parse text p r0)).2 = T at hst
  simp only [seedStep, if_neg n1, if_neg n2, hst, glSource]

/-- C117 fails for `Partition`, `PartitionByLabels` and `ParsePartitionedData` with a negative seed: they draw from the default source of math/rand, which no seed given
to this library touches. What they get after `RefreshRandom(s)` is what they would have got without it. -/
theorem C117_default_refuted (g : RandGen σ V) (fuel : Nat) (S : Sources σ) (s : Int) (q : RandReq) (text : Str) (p : F) (r : Int) (hr : r < 0) :
    (seedStep (F := F) g fuel (seedStep (F := F) g fuel S (.refresh s)).2 (.dflt q)).1 = (seedStep (F := F) g fuel S (.dflt q)).1 ∧
    (seedStep g fuel (seedStep (F := F) g fuel S (.refresh s)).2 (.parse text p r)).1 = (seedStep g fuel S (.parse text p r)).1 := by
  refine ⟨rfl, ?_⟩
  simp only [seedStep, if_pos hr]
  split <;> rfl

/-- What `ParsePartitionedData` makes of a source is what it makes of the numbers drawn from it, so that what is known of the latter (C85) holds for it. -/
theorem drawRowG_list (g : RandGen σ V) (n : Nat) (taken : List Nat) : ∀ (fuel : Nat) (st : σ) (r : Nat × σ), drawRowG g n taken fuel st = some r →
    ∃ draws : List Nat, ∀ more, drawRow taken (draws ++ more) = some (r.1, more)
  | 0, st, r, h => by simp [drawRowG] at h
  | fuel + 1, st, r, h => by
    unfold drawRowG at h
    split at h
    · rename_i hm
      obtain ⟨ds, hds⟩ := drawRowG_list g n taken fuel _ r h
      refine ⟨g.toNat (g.next st (.intn n)).1 :: ds, fun more => ?_⟩
      rw [List.cons_append, drawRow, if_pos hm]
      exact hds more
    · rename_i hm
      simp only [Option.some.injEq] at h
      subst h
      exact ⟨[g.toNat (g.next st (.intn n)).1], fun more => by rw [List.cons_append, drawRow, if_neg hm]; rfl⟩

theorem drawRowsG_list (g : RandGen σ V) (n fuel : Nat) : ∀ (m : Nat) (st : σ) (taken : List Nat) (r : List Nat × σ), drawRowsG g n fuel m st taken = some r →
    ∃ draws : List Nat, drawRows m draws taken = some r.1
  | 0, st, taken, r, h => by
    simp only [drawRowsG, Option.some.injEq] at h
    subst h
    exact ⟨[], rfl⟩
  | m + 1, st, taken, r, h => by
    simp only [drawRowsG, Option.bind_eq_some_iff] at h
    obtain ⟨a, ha, hr⟩ := h
    obtain ⟨ds, hds⟩ := drawRowG_list g n taken fuel st a ha
    obtain ⟨es, hes⟩ := drawRowsG_list g n fuel m a.2 (taken ++ [a.1]) r hr
    refine ⟨ds ++ es, ?_⟩
    rw [drawRows, hds es]
    exact hes

/-- C117, part: a partition from any source is the partition for some sequence of draws. -/
theorem C117_parse_draws (g : RandGen σ V) (fuel : Nat) (text : Str) (p : F) (st : σ) (r : (List (Int × Int) × List VarSet × List VarSet × List Int) × σ)
    (h : parseFrom g fuel text p st = some r) : ∃ draws, parsePartitionedData text p draws = some r.1 := by
  unfold parseFrom at h
  rw [Option.bind_eq_some_iff] at h
  obtain ⟨d, hd, h⟩ := h
  unfold partitionFrom at h
  split at h
  · cases h
  rename_i hm
  rw [Option.bind_eq_some_iff] at h
  obtain ⟨t, ht, h⟩ := h
  rw [Option.bind_eq_some_iff] at h
  obtain ⟨test, htest, h⟩ := h
  rw [Option.map_eq_some_iff] at h
  obtain ⟨train, htrain, h⟩ := h
  obtain ⟨draws, hdr⟩ := drawRowsG_list g _ fuel _ st [] t ht
  refine ⟨draws, ?_⟩
  unfold parsePartitionedData partitionParsed
  simp only [hd, Option.bind_some, if_neg hm, hdr, htest, htrain, Option.map_some]
  rw [← h]

/-- A source that counts upwards from its seed. -/
def countGen : RandGen Nat Nat where
  init s := s.toNat
  next st q := match q with
    | .intn n => (st % n, st + 1)
    | _ => (st, st + 1)
  toNat v := v

/-- A file of three rows of two variables. -/
def threeRows : Str := "var 0 2\nvar 1 2\n0 1\n1 0\n1 1\n".toList

/-- The labels of the test lines. -/
def Spec.labelsOf : SeedObs V → Option (List Int)
  | .parsed (some r) => some r.2.2.2
  | _ => none

/-- C117 fails for `ParsePartitionedData`: called twice in one program with the same file, the same proportion and the same seed, it takes other rows for the test. -/
theorem C117_refuted (d : Nat) : (seedRun countGen 10 ⟨101010101, 0, none, d⟩ [.parse threeRows (XR.fin (1 / 2)) 0, .parse threeRows (XR.fin (1 / 2)) 0]).1.map labelsOf =
    [some [1], some [0]] := by
  have hp : ∀ st, (parseFrom countGen 10 threeRows (XR.fin (1 / 2)) st) =
      (parseData threeRows).bind fun r => partitionFrom countGen 10 r.1 r.2 (GoFloat.toInt (GoFloat.mul (GoFloat.sub (GoFloat.ofInt 1) (XR.fin (1 / 2))) (GoFloat.ofInt (r.2.length : Nat)))) st :=
    fun st => rfl
  have hm : (parseData threeRows).map (fun r => (r.1, r.2.length)) = some ([(0, 2), (1, 2)], 3) := by decide +kernel
  have hi : GoFloat.toInt (GoFloat.mul (GoFloat.sub (GoFloat.ofInt 1) (XR.fin (1 / 2))) (GoFloat.ofInt ((3 : Nat) : Int))) = (1 : Int) := by
    have e : GoFloat.mul (GoFloat.sub (GoFloat.ofInt 1) (XR.fin (1 / 2))) (GoFloat.ofInt ((3 : Nat) : Int)) = XR.fin (3 / 2) := by
      simp
      norm_num
    rw [e]
    simp only [XR.g_toInt, XR.toInt]
    rw [if_pos (by norm_num), Int.floor_eq_iff]
    norm_num
  have hs : ∀ st, parseFrom countGen 10 threeRows (XR.fin (1 / 2)) st = (parseData threeRows).bind fun r => partitionFrom countGen 10 r.1 r.2 1 st := by
    intro st
    rw [hp]
    obtain ⟨r, hr, he⟩ := Option.map_eq_some_iff.1 hm
    have h3 : r.2.length = 3 := congrArg Prod.snd he
    simp only [hr, Option.bind_some, h3, hi]
  have h0 : ((parseData threeRows).bind fun r => partitionFrom countGen 10 r.1 r.2 1 0).map (fun r => (r.1.2.2.2, r.2)) = some ([1], 1) := by decide +kernel
  have h1 : ((parseData threeRows).bind fun r => partitionFrom countGen 10 r.1 r.2 1 1).map (fun r => (r.1.2.2.2, r.2)) = some ([0], 2) := by decide +kernel
  obtain ⟨a, ha, hae⟩ := Option.map_eq_some_iff.1 h0
  obtain ⟨b, hb, hbe⟩ := Option.map_eq_some_iff.1 h1
  have ha1 : a.1.2.2.2 = [1] := congrArg Prod.fst hae
  have ha2 : a.2 = 1 := congrArg Prod.snd hae
  have hb1 : b.1.2.2.2 = [0] := congrArg Prod.fst hbe
  have hs0 := (hs 0).trans ha
  have hs1 := (hs 1).trans hb
  have hin : countGen.init 0 = 0 := rfl
  simp only [seedRun, seedStep, glSource, hin, hs0, ha2, hs1, lt_irrefl, if_false, List.map, labelsOf, ha1, hb1]

/-- A source, a program that has not parsed anything, and a file that parses: the hypotheses of `C117_first_partial` and `C117_parse_draws`. -/
example : ∃ (S : Sources Nat), S.glrand = none ∧ (parseData threeRows).isSome := ⟨⟨0, 0, none, 0⟩, rfl, by decide +kernel⟩

end Gospn
