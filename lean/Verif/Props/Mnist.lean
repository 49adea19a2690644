import Verif.Model.Mnist
import Verif.Props.Download
import Verif.Proofs.Input
set_option linter.unusedSectionVars false
set_option linter.unusedSimpArgs false
/-
C121 for the exported functions for MNIST.
-/
namespace Gospn
open Spec

theorem mnist_file_inj {cwd : Str} {p p' : Str} (hp : p = "test".toList ∨ p = "train".toList) (hp' : p' = "test".toList ∨ p' = "train".toList) {n n' b b' : Int}
    (hn : Int64Range n) (hn' : Int64Range n') (hb : Int64Range b) (hb' : Int64Range b') (h : mnistKeptAt cwd p n b = mnistKeptAt cwd p' n' b') : p = p' ∧ n = n' ∧ b = b' := by
  have h1 := (C121_own_file cwd _ _).1.1 h
  have key : decimal b ++ '_' :: decimal n = decimal b' ++ '_' :: decimal n' → n = n' ∧ b = b' := by
    intro e
    have s1 := scanInt_decimal hb ('_' :: decimal n) (show (some '_').all (fun c => !isDec c) = true by decide)
    have s2 := scanInt_decimal hb' ('_' :: decimal n') (show (some '_').all (fun c => !isDec c) = true by decide)
    rw [e, s2] at s1
    simp only [Option.some.injEq, Prod.mk.injEq, List.cons.injEq, true_and] at s1
    have t1 := scanInt_decimal hn [] (by decide)
    have t2 := scanInt_decimal hn' [] (by decide)
    rw [List.append_nil] at t1 t2
    rw [← s1.2, t2] at t1
    simp only [Option.some.injEq, Prod.mk.injEq, and_true] at t1
    exact ⟨t1.symm, s1.1.symm⟩
  rcases hp with rfl | rfl <;> rcases hp' with rfl | rfl
  · exact ⟨rfl, key (by simpa using h1)⟩
  · simp at h1
  · simp at h1
  · exact ⟨rfl, key (by simpa using h1)⟩

/-- C121. The parts of MNIST of different size or depth, and test and training sets, are kept in different files, so no function returns what another has downloaded. -/
theorem C121_mnist_own_file (cwd : Str) {p p' : Str} (hp : p = "test".toList ∨ p = "train".toList) (hp' : p' = "test".toList ∨ p' = "train".toList) {n n' b b' : Int}
    (hn : Int64Range n) (hn' : Int64Range n') (hb : Int64Range b) (hb' : Int64Range b') : mnistKeptAt cwd p n b = mnistKeptAt cwd p' n' b' ↔ p = p' ∧ n = n' ∧ b = b' :=
  ⟨mnist_file_inj hp hp' hn hn' hb hb', by rintro ⟨rfl, rfl, rfl⟩; rfl⟩

/-- The size and the depth of the four subsets of MNIST, as their names say: 256 shades, or 8 for three bits. -/
inductive Spec.MnistSubset : (Str → Env → Env → Files → Files × Loaded (List (Int × Int) × List VarSet × List VarSet)) → Int → Int → Prop
  | full1000 : MnistSubset mnist1000 1000 256
  | full2000 : MnistSubset mnist2000 2000 256
  | small1000 : MnistSubset mnist3Bits1000 1000 8
  | small2000 : MnistSubset mnist3Bits2000 2000 8

/-- C121 for the four exported functions and downloads that go well: each returns the variables and instances of the test set published for its size and depth, and the
instances of that training set, now and after any further calls. Missing: downloads that go wrong, for which C121 is false (`C121_mnist_refuted`). -/
theorem C121_mnist_functions_partial {f : Str → Env → Env → Files → Files × Loaded (List (Int × Int) × List VarSet × List VarSet)} {n b : Int} (hfn : MnistSubset f n b)
    (cwd : Str) (E E' : Env) (hE : E.statFails = false ∧ E.creates = true) (hE' : E'.statFails = false ∧ E'.creates = true) (fs : Files)
    (h : fs (mnistKeptAt cwd "test".toList n b) = none) (h' : fs (mnistKeptAt cwd "train".toList n b) = none) {t r : Str} (hf : E.fetch (mnistPublished "test".toList n b) = .body t true)
    (hf' : E'.fetch (mnistPublished "train".toList n b) = .body r true) {x y : List (Int × Int) × List VarSet} (hx : parseData t = some x) (hy : parseData r = some y) :
    (f cwd E E' fs).2 = .data (x.1, x.2, y.2) ∧ ∀ (calls : List DataCall) (E₁ E₂ : Env), E₁.statFails = false → E₂.statFails = false →
      (f cwd E₁ E₂ (calls.foldl (DataCall.after cwd) (f cwd E E' fs).1)).2 = .data (x.1, x.2, y.2) := by
  cases hfn <;> exact C121_mnist_partial cwd E E' hE hE' _ _ fs h h' hf hf' hx hy

/-- The hypotheses can be met: empty disk and a server that has the two files. -/
example : ∃ (E : Env) (t : Str) (x : List (Int × Int) × List VarSet), E.statFails = false ∧ E.creates = true ∧ E.fetch (mnistPublished "test".toList 1000 8) = .body t true ∧
    E.fetch (mnistPublished "train".toList 1000 8) = .body t true ∧ parseData t = some x ∧ x.2.length = 2 ∧ Int64Range 1000 ∧ Int64Range 8 :=
  ⟨{ statFails := false, creates := true, fetch := fun _ => .body (dataText [(0, 2)] [decimal 0, decimal 1]) true }, _, _, rfl, rfl, rfl, rfl,
    C84_parseData_partial twoRows_file (by simp) (by simp) (by decide), by simp, by unfold Int64Range; omega, by unfold Int64Range; omega⟩

end Gospn
