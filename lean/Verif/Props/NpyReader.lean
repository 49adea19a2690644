import Verif.Model.NpyReader
import Verif.Props.Npy
/-
Property C116: reading a file in several calls.
-/
set_option linter.unusedSectionVars false
set_option linter.unusedSimpArgs false

namespace Gospn

/-- The instance and the label in row `p` of a file of rows of `y` elements. -/
def Spec.IsRow (y : Nat) (elems : List Int) (p : Nat) (I : VarSet) (l : Int) : Prop :=
  (∀ j : Nat, j < y - 1 → I (j : Int) = elems[p * y + j]?) ∧ (∀ k : Int, ¬ (0 ≤ k ∧ k < (y : Int) - 1) → I k = none) ∧ elems[p * y + (y - 1)]? = some l

/-- The rows `a`, …, `a + n - 1` of the file, in order. -/
def Spec.AreRows (y : Nat) (elems : List Int) (a n : Nat) (D : List VarSet) (L : List Int) : Prop :=
  D.length = n ∧ L.length = n ∧ ∀ p < n, ∃ I l, D[p]? = some I ∧ L[p]? = some l ∧ Spec.IsRow y elems (a + p) I l

open Spec

theorem npyRead_rows (y : Nat) (hy : 0 < y) (a n : Nat) (elems : List Int) :
    (elems.length < (a + n) * y → 0 < n → npyRead y n (elems.drop (a * y)) = .err) ∧
    ((a + n) * y ≤ elems.length → ∃ D L, npyRead y n (elems.drop (a * y)) = .ok D L (elems.drop ((a + n) * y)) ∧ AreRows y elems a n D L) := by
  obtain ⟨h1, h2⟩ := C63_read y hy n (elems.drop (a * y))
  have hmul : (a + n) * y = a * y + n * y := Nat.add_mul ..
  constructor
  · intro h hn
    refine h1 ?_
    rw [List.length_drop]
    have : 0 < n * y := Nat.mul_pos hn hy
    omega
  · intro h
    obtain ⟨D, L, e, hD, hL, hp⟩ := h2 (by rw [List.length_drop]; omega)
    refine ⟨D, L, by rw [e, List.drop_drop, ← hmul], hD, hL, fun p hpn => ?_⟩
    obtain ⟨⟨I, hI, hI1, hI2⟩, hl⟩ := hp p hpn
    have hmul2 : (a + p) * y = a * y + p * y := Nat.add_mul ..
    have hlt : (p + 1) * y ≤ n * y := Nat.mul_le_mul_right y hpn
    rw [Nat.add_mul, one_mul] at hlt
    have hin : a * y + p * y + (y - 1) < elems.length := by omega
    refine ⟨I, elems[a * y + p * y + (y - 1)], hI, ?_, ?_, hI2, ?_⟩
    · rw [hl, List.getElem?_drop, ← Nat.add_assoc, List.getElem?_eq_getElem hin]
    · intro j hj
      rw [hI1 j hj, List.getElem?_drop, hmul2, Nat.add_assoc]
    · rw [hmul2, List.getElem?_eq_getElem hin]

/-- C116 (a new reader): it is at the first row; files that are not of dimension two or not of an integer type are refused. -/
theorem C116_new (shape : List Nat) (type : String) (elems : List Int) :
    ((∃ x y, shape = [x, y]) ∧ 0 ≤ npyIsValid type → ∃ r, newNpyReader shape type elems = some r ∧ r.rest = elems ∧ r.all = elems ∧ shape = [r.rows, r.cols]) ∧
    (shape.length ≠ 2 → newNpyReader shape type elems = none) ∧ (npyIsValid type < 0 → newNpyReader shape type elems = none) := by
  refine ⟨?_, ?_, ?_⟩
  · rintro ⟨⟨x, y, rfl⟩, h⟩
    exact ⟨⟨x, y, elems, elems⟩, by simp [newNpyReader, not_lt.2 h], rfl, rfl, rfl⟩
  · intro h
    rcases shape with _ | ⟨x, _ | ⟨y, _ | ⟨z, s⟩⟩⟩ <;> simp_all [newNpyReader]
  · intro h
    rcases shape with _ | ⟨x, _ | ⟨y, _ | ⟨z, s⟩⟩⟩ <;> simp_all [newNpyReader]

/-- C116 (consecutive reads): calls of `Read(n₁)`, `Read(n₂)`, … on a reader that is at row `a` return the next `n₁` rows, the next `n₂` rows, …, if the file has that many, and leave the reader behind them. -/
theorem C116_consecutive (r : NpyReader) (hy : 0 < r.cols) (ns : List Nat) : ∀ (a : Nat) (rest : List Int), rest = r.all.drop (a * r.cols) → (a + ns.sum) * r.cols ≤ r.all.length →
    ∃ outs, NpyReader.calls { r with rest := rest } (ns.map fun (n : Nat) => NpyOp.read n 0) = some ({ r with rest := r.all.drop ((a + ns.sum) * r.cols) }, outs) ∧ outs.length = ns.length ∧
      ∀ i n, ns[i]? = some n → ∃ D L, outs[i]? = some (.data D L) ∧ AreRows r.cols r.all (a + (ns.take i).sum) n D L := by
  induction ns with
  | nil => intro a rest hr _; subst hr; exact ⟨[], by simp [NpyReader.calls], rfl, by simp⟩
  | cons n ns ih =>
    intro a rest hr h
    subst hr
    rw [List.sum_cons, ← Nat.add_assoc] at h
    have hle : (a + n) * r.cols ≤ r.all.length := le_trans (Nat.mul_le_mul_right _ (Nat.le_add_right _ _)) h
    obtain ⟨D, L, e, hrows⟩ := (npyRead_rows r.cols hy a n r.all).2 hle
    obtain ⟨outs, h1, h2, h3⟩ := ih (a + n) _ rfl h
    refine ⟨.data D L :: outs, ?_, by simp [h2], ?_⟩
    · simp only [List.map_cons, NpyReader.calls, NpyReader.call, e, NpyReader.after, Option.bind_some, h1, Option.map_some, List.sum_cons, Nat.add_assoc]
    · intro i m hi
      cases i with
      | zero =>
        simp only [List.getElem?_cons_zero, Option.some.injEq] at hi
        subst hi
        exact ⟨D, L, rfl, by simpa using hrows⟩
      | succ i =>
        obtain ⟨D', L', g1, g2⟩ := h3 i m (by simpa using hi)
        exact ⟨D', L', by simpa using g1, by simpa [Nat.add_assoc] using g2⟩

/-- Calls change neither the shape nor the contents of the file. -/
theorem npyCalls_file : ∀ (os : List NpyOp) (r r' : NpyReader) outs, r.calls os = some (r', outs) → r'.rows = r.rows ∧ r'.cols = r.cols ∧ r'.all = r.all := by
  intro os
  induction os with
  | nil => intro r r' outs h; cases h; exact ⟨rfl, rfl, rfl⟩
  | cons o os ih =>
    intro r r' outs h
    simp only [NpyReader.calls, Option.bind_eq_some_iff, Option.map_eq_some_iff] at h
    obtain ⟨⟨r1, o1⟩, h1, ⟨r2, o2⟩, h2, h3⟩ := h
    cases h3
    obtain ⟨a1, a2, a3⟩ := ih _ _ _ h2
    have hafter : ∀ lost res, r.after lost res = some (r1, o1) → r1.rows = r.rows ∧ r1.cols = r.cols ∧ r1.all = r.all := by
      intro lost res hh
      cases res with
      | panic => cases hh
      | err => cases hh; exact ⟨rfl, rfl, rfl⟩
      | ok D L rest => cases hh; exact ⟨rfl, rfl, rfl⟩
    have : r1.rows = r.rows ∧ r1.cols = r.cols ∧ r1.all = r.all := by
      cases o with
      | read n lost => exact hafter _ _ h1
      | readAll lost => exact hafter _ _ h1
      | readBalanced n c lost => exact hafter _ _ h1
      | reset => cases h1; exact ⟨rfl, rfl, rfl⟩
    obtain ⟨b1, b2, b3⟩ := this
    exact ⟨a1.trans b1, a2.trans b2, a3.trans b3⟩

/-- C116 (starting again): whatever has been read before, with or without errors, after `Reset` every sequence of calls gives what it gives on a new reader of the file. -/
theorem C116_reset (r r' : NpyReader) (before after : List NpyOp) (outs : List NpyOut) (h : r.calls before = some (r', outs)) :
    r'.calls (.reset :: after) = (NpyReader.calls ⟨r.rows, r.cols, r.all, r.all⟩ after).map fun b => (b.1, .nothing :: b.2) := by
  obtain ⟨h1, h2, h3⟩ := npyCalls_file _ _ _ _ h
  simp only [NpyReader.calls, NpyReader.call, Option.bind_some]
  rw [h1, h2, h3]

/-- C116, part: `ReadAll` on a reader at the first row of a file that has as many elements as its shape says returns all rows. -/
theorem C116_readAll_partial (r : NpyReader) (hy : 0 < r.cols) (hall : r.all.length = r.rows * r.cols) (hr : r.rest = r.all) (lost : Nat) :
    ∃ D L, r.call (.readAll lost) = some ({ r with rest := [] }, .data D L) ∧ AreRows r.cols r.all 0 r.rows D L := by
  obtain ⟨D, L, e, hrows⟩ := (npyRead_rows r.cols hy 0 r.rows r.all).2 (by rw [Nat.zero_add]; omega)
  refine ⟨D, L, ?_, hrows⟩
  simp only [Nat.zero_mul, List.drop_zero, Nat.zero_add] at e
  simp only [NpyReader.call, hr, e, NpyReader.after]
  rw [← hall, List.drop_length]

/-- C116 is false for `ReadAll` on a reader that has already been used: after a successful `Read(n)` with `n ≥ 1` it asks for as many rows as the whole file has, and returns an error instead of the rows that are
left, whatever the file. -/
theorem C116_refuted (r : NpyReader) (hy : 0 < r.cols) (hall : r.all.length = r.rows * r.cols) (hr : r.rest = r.all) (n : Nat) (hn : 0 < n) (hn' : n ≤ r.rows) (lost : Nat) :
    ∃ r' D L, r.call (.read n 0) = some (r', .data D L) ∧ AreRows r.cols r.all 0 n D L ∧ ∃ r'', r'.call (.readAll lost) = some (r'', .err) := by
  have hmul : n * r.cols ≤ r.rows * r.cols := Nat.mul_le_mul_right _ hn'
  obtain ⟨D, L, e, hrows⟩ := (npyRead_rows r.cols hy 0 n r.all).2 (by rw [Nat.zero_add]; omega)
  simp only [Nat.zero_mul, List.drop_zero, Nat.zero_add] at e
  refine ⟨{ r with rest := r.all.drop (n * r.cols) }, D, L, by simp only [NpyReader.call, hr, e, NpyReader.after], hrows, ?_⟩
  have := (npyRead_rows r.cols hy n r.rows r.all).1 (by rw [Nat.add_mul]; have := Nat.mul_pos hn hy; omega) (by omega)
  exact ⟨⟨r.rows, r.cols, r.all, (r.all.drop (n * r.cols)).drop lost⟩, by simp only [NpyReader.call, this, NpyReader.after]⟩

example : (NpyReader.mk 2 3 [5, 6, 1, 7, 8, 0] [5, 6, 1, 7, 8, 0]).all.length = 2 * 3 ∧ 0 < (NpyReader.mk 2 3 [5, 6, 1, 7, 8, 0] [5, 6, 1, 7, 8, 0]).cols ∧ (0 + [1, 1].sum) * 3 ≤ 6 ∧ 0 ≤ npyIsValid "<i8" := by
  decide +kernel

end Gospn
