/-
Theorems about the text representation of a network and the statistics of a multinomial: C106, C107.
-/
import Verif.Proofs.Print
import Verif.Proofs.Spn
import Verif.Proofs.Log
import Verif.Props.Stats
import Mathlib.Tactic.NormNum
import Mathlib.Tactic.Linarith

set_option linter.unusedSectionVars false
set_option linter.unusedSimpArgs false

namespace Gospn
open Spec GoFloat
variable {ι κ F : Type}

/-! ## C106: the text -/

section
variable [DecidableEq ι] [Fintype ι] [DecidableEq κ] [Fintype κ] [GoFloat F]

/-- C106: if no leaf is an indicator and no sum has fewer weights than children, `PrintSPN` writes one block for every node, the root first, under names that tell nodes apart. -/
theorem C106_prints_partial (N : Net ι F) (S : ι) (hl : ∀ n, Reach N.ch S n → ∀ v x, N.kind n ≠ .leaf (.indicator v x))
    (hw : ∀ n cs w, Reach N.ch S n → N.kind n = .sum cs w → cs.length ≤ w.length) : ∃ out ns name, printSPN N S = some out ∧ Prints N S out ns name := by
  rcases printSPN_spec N S with ⟨⟨n, hn, h⟩, _⟩ | ⟨out, ns, name, h1, h2, _⟩
  · rcases h with ⟨v, x, h⟩ | ⟨cs, w, h, hlt⟩
    · exact absurd h (hl n hn v x)
    · have := hw n cs w hn h
      omega
  · exact ⟨out, ns, name, h1, h2⟩

/-- C106: exactly an indicator, or a sum with fewer weights than children, makes `PrintSPN` panic. -/
theorem C106_panics (N : Net ι F) (S : ι) : printSPN N S = none ↔
    ∃ n, Reach N.ch S n ∧ ((∃ v x, N.kind n = .leaf (.indicator v x)) ∨ ∃ cs w, N.kind n = .sum cs w ∧ w.length < cs.length) := by
  rcases printSPN_spec N S with ⟨h, h'⟩ | ⟨out, ns, name, h1, _, h3⟩
  · exact ⟨fun _ => h, fun _ => h'⟩
  · rw [h1]
    refine ⟨fun h => (by cases h), ?_⟩
    rintro ⟨n, hn, h⟩
    exact absurd h (h3 n hn)

theorem Spec.Prints.leaf_of_name {N : Net ι F} {S : ι} {out ns name} (h : Prints N S out ns name) {n : ι} (hn : Reach N.ch S n) (h1 : (name n).1 ≠ .S) (h2 : (name n).1 ≠ .P) :
    ∃ l, N.kind n = .leaf l := by
  cases hk : N.kind n with
  | leaf l => exact ⟨l, rfl⟩
  | sum cs w => exact absurd ((h.sums n hn).2 ⟨cs, w, hk⟩) h1
  | product cs => exact absurd ((h.products n hn).2 ⟨cs, hk⟩) h2

theorem zip_names_inj {α β A B : Type} {f : α → A} {g : β → A} : ∀ {cs : List α} {ds : List β} {w v : List B}, cs.length = w.length → ds.length = v.length →
    (cs.map f).zip w = (ds.map g).zip v → cs.map f = ds.map g ∧ w = v := by
  intro cs ds w v h1 h2 h
  have e1 := congrArg (List.map Prod.fst) h
  have e2 := congrArg (List.map Prod.snd) h
  rw [List.map_fst_zip (by simp; omega), List.map_fst_zip (by simp; omega)] at e1
  rw [List.map_snd_zip (by simp; omega), List.map_snd_zip (by simp; omega)] at e2
  exact ⟨e1, e2⟩

/-- C106: from the text one can tell the network apart from all others but those that differ in leaves with the same two numbers. -/
theorem C106_determines_partial (N : Net ι F) (S : ι) (N' : Net κ F) (S' : κ) (hw : ∀ n cs w, Reach N.ch S n → N.kind n = .sum cs w → cs.length = w.length)
    (hw' : ∀ n cs w, Reach N'.ch S' n → N'.kind n = .sum cs w → cs.length = w.length) (out : List (PBlock F)) (h : printSPN N S = some out) (h' : printSPN N' S' = some out) :
    ∃ φ, SameText N S N' S' φ := by
  obtain ⟨ns, name, hp⟩ : ∃ ns name, Prints N S out ns name := by
    rcases printSPN_spec N S with ⟨_, e⟩ | ⟨o, ns, name, e, hp, _⟩
    · rw [h] at e; cases e
    · rw [h] at e; cases e; exact ⟨ns, name, hp⟩
  obtain ⟨ns', name', hp'⟩ : ∃ ns' name', Prints N' S' out ns' name' := by
    rcases printSPN_spec N' S' with ⟨_, e⟩ | ⟨o, ns, name, e, hp, _⟩
    · rw [h'] at e; cases e
    · rw [h'] at e; cases e; exact ⟨ns, name, hp⟩
  have hnames : ns.map name = ns'.map name' := hp.blocks.symm.trans hp'.blocks
  have hex : ∀ n, Reach N.ch S n → ∃ k, Reach N'.ch S' k ∧ name' k = name n := by
    intro n hn
    have : name n ∈ ns'.map name' := hnames ▸ List.mem_map_of_mem ((hp.nodes.2 n).2 hn)
    obtain ⟨k, hk, e⟩ := List.mem_map.1 this
    exact ⟨k, (hp'.nodes.2 k).1 hk, e⟩
  classical
  let φ : ι → κ := fun n => if hn : Reach N.ch S n then (hex n hn).choose else S'
  have hφ : ∀ n, Reach N.ch S n → Reach N'.ch S' (φ n) ∧ name' (φ n) = name n := by
    intro n hn
    simp only [φ, hn, dif_pos]
    exact (hex n hn).choose_spec
  have hblock : ∀ n, Reach N.ch S n → ∃ b, (n, b) ∈ ns.zip out ∧ (φ n, b) ∈ ns'.zip out := by
    intro n hn
    obtain ⟨b, g1, g2, g3⟩ := hp.block hn
    obtain ⟨b', g1', g2', g3'⟩ := hp'.block (hφ n hn).1
    have : b = b' := hp.unique b g2 b' g2' (by rw [g3, g3', (hφ n hn).2])
    subst this
    exact ⟨b, g1, g1'⟩
  have hmap : ∀ (cs : List ι) (ds : List κ), (∀ c ∈ cs, Reach N.ch S c) → (∀ d ∈ ds, Reach N'.ch S' d) → cs.map name = ds.map name' → ds = cs.map φ := by
    intro cs
    induction cs with
    | nil => intro ds _ _ e; simpa [eq_comm] using e
    | cons c cs ih =>
      intro ds hc hd e
      cases ds with
      | nil => simp at e
      | cons d ds =>
        simp only [List.map_cons, List.cons.injEq] at e
        rw [List.map_cons, ← ih ds (fun x hx => hc x (by simp [hx])) (fun x hx => hd x (by simp [hx])) e.2]
        congr 1
        have := hφ c (hc c (by simp))
        exact hp'.names d (φ c) (hd d (by simp)) this.1 (by rw [this.2, e.1])
  have hroot : φ S = S' := by
    have hS := hφ S Relation.ReflTransGen.refl
    refine hp'.names _ _ hS.1 Relation.ReflTransGen.refl ?_
    rw [hS.2]
    have e1 := congrArg List.head? hnames
    rw [List.head?_map, List.head?_map, hp.first, hp'.first] at e1
    simpa using e1
  refine ⟨φ, hroot, fun n hn => (hφ n hn).1, ?_, ?_, ?_, ?_, ?_⟩
  · intro n m hn hm e
    exact hp.names n m hn hm (by rw [← (hφ n hn).2, ← (hφ m hm).2, e])
  · intro k hk
    have : name' k ∈ ns.map name := hnames ▸ List.mem_map_of_mem ((hp'.nodes.2 k).2 hk)
    obtain ⟨n, hn, e⟩ := List.mem_map.1 this
    have hn := (hp.nodes.2 n).1 hn
    exact ⟨n, hn, hp'.names _ _ (hφ n hn).1 hk (by rw [(hφ n hn).2, e])⟩
  · intro n cs w hn hk
    have h1 := (hp.sums n hn).2 ⟨cs, w, hk⟩
    rw [← (hφ n hn).2] at h1
    obtain ⟨ds, v, hk'⟩ := (hp'.sums _ (hφ n hn).1).1 h1
    obtain ⟨b, g1, g2⟩ := hblock n hn
    have e := (hp.sum n b cs w g1 hk).symm.trans (hp'.sum _ b ds v g2 hk')
    injection e with e
    have hl := hw n cs w hn hk
    have hl' := hw' _ ds v (hφ n hn).1 hk'
    obtain ⟨e1, e2⟩ := zip_names_inj (by simpa using hl) (by simpa using hl') e
    have e2 : w = v := List.map_injective_iff.2 (Option.some_injective _) e2
    rw [hk', hmap cs ds (fun c hc => hn.tail (by rw [Net.ch_sum hk]; exact hc)) (fun d hd => (hφ n hn).1.tail (by rw [Net.ch_sum hk']; exact hd)) e1, e2]
  · intro n cs hn hk
    have h1 := (hp.products n hn).2 ⟨cs, hk⟩
    rw [← (hφ n hn).2] at h1
    obtain ⟨ds, hk'⟩ := (hp'.products _ (hφ n hn).1).1 h1
    obtain ⟨b, g1, g2⟩ := hblock n hn
    have e := (hp.product n b cs g1 hk).symm.trans (hp'.product _ b ds g2 hk')
    injection e with e
    have e1 := congrArg (List.map Prod.fst) e
    simp only [List.map_map] at e1
    rw [hk', hmap cs ds (fun c hc => hn.tail (by rw [Net.ch_product hk]; exact hc)) (fun d hd => (hφ n hn).1.tail (by rw [Net.ch_product hk']; exact hd)) e1]
  · intro n l hn hk
    have h1 : (name' (φ n)).1 ≠ .S := by
      rw [(hφ n hn).2]
      intro hS
      obtain ⟨cs, w, e⟩ := (hp.sums n hn).1 hS
      rw [hk] at e; cases e
    have h2 : (name' (φ n)).1 ≠ .P := by
      rw [(hφ n hn).2]
      intro hS
      obtain ⟨cs, e⟩ := (hp.products n hn).1 hS
      rw [hk] at e; cases e
    obtain ⟨l', hk'⟩ := hp'.leaf_of_name (hφ n hn).1 h1 h2
    obtain ⟨b, g1, g2⟩ := hblock n hn
    have e := (hp.leaf n b l g1 hk).symm.trans (hp'.leaf _ b l' g2 hk')
    injection e with e1 e2
    exact ⟨l', hk', Prod.ext e1.symm e2.symm⟩

end

namespace PrintDemo

/-- A network of one leaf. -/
def one (l : Leaf XR) : Net Unit XR := ⟨fun _ => .leaf l⟩

theorem one_value (l : Leaf XR) (I : VarSet) : (one l).value I () = l.value I := by
  rw [Net.value_unfold ⟨fun _ => 0, by intro u c hc; simp [one, Net.ch] at hc⟩]
  rfl

theorem one_prints {l : Leaf XR} {p : XR × XR} (h : l.muSigma = some p) : printSPN (one l) () = some [⟨(.L, 0), .leaf p.1 p.2⟩] := by
  have hl : printLabels (one l) () = fun _ => some (.L, 0) := by
    obtain ⟨h1, _, _⟩ := printLabels_spec (one l) ()
    funext u
    have : tarjanOrder (one l).ch () = [()] := by
      have h := tarjanOrder_listsReachable (one l).ch ()
      have hm : () ∈ tarjanOrder (one l).ch () := (h.2 ()).2 Relation.ReflTransGen.refl
      have hn := h.1
      match tarjanOrder (one l).ch (), hm, hn with
      | [()], _, _ => rfl
      | () :: () :: _, _, hn => simp at hn
    unfold printLabels
    rw [topSortTarjanFunc_eq, callUntilFalse_true _ (fun _ _ => rfl), this]
    simp [labelStep, one, Kind.letter]
  unfold printSPN
  rw [hl]
  have hb : printBlock (one l) (fun _ => some (.L, 0)) () = some ⟨(.L, 0), .leaf p.1 p.2⟩ := by
    simp [printBlock, one, h]
  show printLoop (one l) _ 1 [()] {()} = _
  unfold printLoop
  rw [hb]
  simp [one, Net.ch, joinQueue, printLoop]

/-- The multinomial on variable `v`. -/
noncomputable def multi (v : Int) (q : List ℝ) : Leaf XR := .multinomial [v] v (q.map .fin) 0 (.fin 1)

/-- The sum of two products over three leaves, one of them shared: the second child of both products. -/
noncomputable def shared : Net (Fin 6) XR := ⟨![.sum [1, 2] [.fin (1/4), .fin (3/4)], .product [3, 5], .product [4, 5], .leaf (multi 0 [1, 0]), .leaf (multi 0 [0, 1]),
  .leaf (.gaussian 1 (.fin 0) (.fin 1))]⟩

end PrintDemo
open PrintDemo

/-- The hypotheses of `C106_prints_partial` and of `C106_determines_partial` are met by a network with a shared leaf. -/
example : (∀ n, Reach shared.ch 0 n → ∀ v x, shared.kind n ≠ .leaf (.indicator v x)) ∧ (∀ n cs w, Reach shared.ch 0 n → shared.kind n = .sum cs w → cs.length = w.length) := by
  refine ⟨fun n _ v x => ?_, fun n cs w _ h => ?_⟩
  · fin_cases n <;> simp [shared, multi]
  · fin_cases n <;> simp [shared] at h
    rw [← h.1, ← h.2]; rfl

/-- C106 fails in that the variable of a leaf is not part of the text: two networks over different variables have the same text. Nor do the two numbers tell a multinomial: two
distributions of the same variable have the same text. -/
theorem C106_refuted :
    (∃ (N N' : Net Unit XR) (out : List (PBlock XR)) (I : VarSet), printSPN N () = some out ∧ printSPN N' () = some out ∧ (∀ l, N.kind () = .leaf l → l.sc = [0]) ∧
      (∀ l, N'.kind () = .leaf l → l.sc = [1]) ∧ N.value I () = some (.fin 0) ∧ N'.value I () = some .ninf) ∧
    ∃ (N N' : Net Unit XR) (out : List (PBlock XR)) (I : VarSet), printSPN N () = some out ∧ printSPN N' () = some out ∧ (∀ l, N.kind () = .leaf l → l.sc = [0]) ∧
      (∀ l, N'.kind () = .leaf l → l.sc = [0]) ∧ N.value I () = some .ninf ∧ N'.value I () = some (.fin (Real.log (1/3))) := by
  constructor
  · refine ⟨one (multi 0 [1, 0]), one (multi 1 [1, 0]), _, fun v => if v = 0 then some 0 else some 1, one_prints rfl, one_prints rfl, ?_, ?_, ?_, ?_⟩
    · intro l h; simp [one, multi] at h; rw [← h]; rfl
    · intro l h; simp [one, multi] at h; rw [← h]; rfl
    · rw [one_value]; simp [multi, Leaf.value, goIdx, XR.log]
    · rw [one_value]; simp [multi, Leaf.value, goIdx, XR.log]
  · refine ⟨one (multi 0 [1/2, 0, 1/2]), one (multi 0 [1/3, 1/3, 1/3]), [⟨(.L, 0), .leaf (.fin 1) (.fin (Real.sqrt (2/3)))⟩], fun v => some 1, one_prints (p := (.fin 1, .fin (Real.sqrt (2/3)))) ?_,
      one_prints (p := (.fin 1, .fin (Real.sqrt (2/3)))) ?_, ?_, ?_, ?_, ?_⟩
    · simp [multi, Leaf.muSigma, multinomMuSigma, multinomMean, multinomSquares, List.zipIdx, XR.sqrt]
      norm_num [XR.sqrt]
    · simp [multi, Leaf.muSigma, multinomMuSigma, multinomMean, multinomSquares, List.zipIdx, XR.sqrt]
      norm_num [XR.sqrt]
    · intro l h; simp [one, multi] at h; rw [← h]; rfl
    · intro l h; simp [one, multi] at h; rw [← h]; rfl
    · rw [one_value]; simp [multi, Leaf.value, goIdx, XR.log]
    · rw [one_value]; simp [multi, Leaf.value, goIdx, XR.log]

/-! ## C107: mean and standard deviation of a multinomial -/

theorem foldl_zipIdx_total {f : ℝ × Nat → XR} {g : ℝ × Nat → ℝ} (h : ∀ p, f p = .fin (g p)) (l : List (ℝ × Nat)) : ∀ a : ℝ,
    l.foldl (fun s p => GoFloat.add s (f p)) (.fin a) = .fin (a + (l.map g).sum) := by
  induction l with
  | nil => intro a; simp
  | cons p l ih =>
    intro a
    rw [List.foldl_cons, h p, XR.g_add, XR.add_fin, ih]
    simp [add_assoc]

/-- C107: `Mean` of a multinomial is the mean of its distribution. -/
theorem C107_mean (q : List ℝ) : multinomMean (q.map XR.fin) = XR.fin (distMean q) := by
  unfold multinomMean distMean
  rw [List.zipIdx_map, List.foldl_map]
  have := foldl_zipIdx_total (f := fun p => GoFloat.mul (XR.fin p.1) (ofInt (p.2 : Int))) (g := fun p => p.1 * (p.2 : ℝ)) (by intro p; simp) q.zipIdx 0
  simpa using this

/-- C107: `MuSigma` returns `Mean` and `StdDev`. -/
theorem C107_muSigma [GoFloat F] (pr : List F) : multinomMuSigma pr = (multinomMean pr, multinomStdDev pr) := rfl

/-- The sum of squares of the distances of 0, …, n−1 from `m`. -/
theorem squares_closed (m : ℝ) : ∀ (q : List ℝ) (k : Nat), ((q.zipIdx k).map fun p => ((p.2 : ℝ) - m) ^ 2).sum = ∑ i ∈ Finset.range q.length, ((k + i : ℝ) - m) ^ 2 := by
  intro q
  induction q with
  | nil => intro k; simp
  | cons x q ih =>
    intro k
    rw [List.zipIdx_cons, List.map_cons, List.sum_cons, ih, List.length_cons, Finset.sum_range_succ']
    push_cast
    rw [add_comm]
    congr 1
    · refine Finset.sum_congr rfl fun i _ => by ring
    · simp

theorem sum_squares (m : ℝ) (n : Nat) : ∑ i ∈ Finset.range n, ((i : ℝ) - m) ^ 2 = n * (((n : ℝ) ^ 2 - 1) / 12 + (m - ((n : ℝ) - 1) / 2) ^ 2) := by
  induction n with
  | zero => simp
  | succ n ih => rw [Finset.sum_range_succ, ih]; push_cast; ring

/-- C107: what `StdDev` of a multinomial over n ≥ 1 values returns: the square root of (n²−1)/12 + (μ−(n−1)/2)². Of the probabilities only the mean counts. -/
theorem C107_stdDev_value (q : List ℝ) (hq : q ≠ []) :
    multinomStdDev (q.map XR.fin) = XR.fin (Real.sqrt (((q.length : ℝ) ^ 2 - 1) / 12 + (distMean q - ((q.length : ℝ) - 1) / 2) ^ 2)) := by
  have hn : (q.length : ℝ) ≠ 0 := by
    have : q.length ≠ 0 := by simpa using hq
    exact_mod_cast this
  unfold multinomStdDev multinomSquares
  rw [C107_mean, List.zipIdx_map, List.foldl_map]
  have := foldl_zipIdx_total (f := fun p => GoFloat.mul (GoFloat.sub (ofInt (p.2 : Int)) (XR.fin (distMean q))) (GoFloat.sub (ofInt (p.2 : Int)) (XR.fin (distMean q))))
    (g := fun p => ((p.2 : ℝ) - distMean q) ^ 2) (by intro p; simp [pow_two]) q.zipIdx 0
  have h0 : (ofInt 0 : XR) = .fin 0 := by simp
  rw [h0]
  simp only [Prod.map_fst, Prod.map_snd, id] at this ⊢
  rw [this, squares_closed]
  simp only [Nat.cast_zero, zero_add, sum_squares, XR.g_ofInt, List.length_map, Int.cast_natCast, XR.g_div, XR.div_fin hn, XR.g_sqrt, XR.sqrt]
  rw [mul_div_cancel_left₀ _ hn, if_neg]
  have h1 : (1 : ℝ) ≤ q.length := by
    have : 1 ≤ q.length := List.length_pos_of_ne_nil hq
    exact_mod_cast this
  have : (0 : ℝ) ≤ ((q.length : ℝ) ^ 2 - 1) / 12 := by nlinarith
  have h2 := sq_nonneg (distMean q - ((q.length : ℝ) - 1) / 2)
  exact not_lt.2 (by linarith)

theorem zipIdx_replicate_sum (c : ℝ) (g : Nat → ℝ) : ∀ n k, (((List.replicate n c).zipIdx k).map fun p => p.1 * g p.2).sum = c * ∑ i ∈ Finset.range n, g (k + i) := by
  intro n
  induction n with
  | zero => intro k; simp
  | succ n ih =>
    intro k
    rw [List.replicate_succ, List.zipIdx_cons, List.map_cons, List.sum_cons, ih, Finset.sum_range_succ']
    simp only [Nat.add_zero]
    rw [mul_add, add_comm]
    congr 2
    exact Finset.sum_congr rfl fun i _ => by congr 1; omega

/-- C107: for the uniform distribution, `StdDev` is the standard deviation. -/
theorem C107_uniform_partial (n : Nat) (hn : 0 < n) :
    multinomStdDev ((List.replicate n (1 / (n : ℝ))).map XR.fin) = XR.fin (Real.sqrt (distVar (List.replicate n (1 / (n : ℝ))))) := by
  have hn' : (n : ℝ) ≠ 0 := by exact_mod_cast hn.ne'
  rw [C107_stdDev_value _ (by simp; omega)]
  congr 2
  have hv : distVar (List.replicate n (1 / (n : ℝ))) = 1 / (n : ℝ) * ∑ i ∈ Finset.range n, ((i : ℝ) - distMean (List.replicate n (1 / (n : ℝ)))) ^ 2 := by
    have := zipIdx_replicate_sum (1 / (n : ℝ)) (fun i => ((i : ℝ) - distMean (List.replicate n (1 / (n : ℝ)))) ^ 2) n 0
    unfold distVar
    simpa using this
  rw [hv, sum_squares, List.length_replicate]
  field_simp

example : (0 : Nat) < 4 := by norm_num

theorem pointMass_sum (g : Nat → ℝ) : ∀ (a b k : Nat), (((List.replicate a (0 : ℝ) ++ (1 : ℝ) :: List.replicate b 0 : List ℝ).zipIdx k).map fun (p : ℝ × Nat) => p.1 * g p.2).sum = g (k + a) := by
  intro a b k
  rw [List.zipIdx_append, List.map_append, List.sum_append, zipIdx_replicate_sum, List.zipIdx_cons, List.map_cons, List.sum_cons, zipIdx_replicate_sum]
  simp

/-- C107 fails for every distribution that is certain of its value: its standard deviation is zero, but with two or more values `StdDev` returns a positive number. -/
theorem C107_refuted (a b : Nat) (hab : 0 < a + b) : distVar (List.replicate a (0 : ℝ) ++ 1 :: List.replicate b 0) = 0 ∧
    ∃ s, multinomStdDev ((List.replicate a (0 : ℝ) ++ 1 :: List.replicate b 0).map XR.fin) = XR.fin s ∧ 0 < s := by
  have hm : distMean (List.replicate a (0 : ℝ) ++ 1 :: List.replicate b 0) = a := by
    have := pointMass_sum (fun i => (i : ℝ)) a b 0
    unfold distMean
    simpa using this
  constructor
  · have := pointMass_sum (fun i => ((i : ℝ) - a) ^ 2) a b 0
    unfold distVar
    rw [hm]
    simpa using this
  · refine ⟨_, C107_stdDev_value _ (by simp), Real.sqrt_pos.2 ?_⟩
    have h2 := sq_nonneg (distMean (List.replicate a (0 : ℝ) ++ 1 :: List.replicate b 0) - (((List.replicate a (0 : ℝ) ++ 1 :: List.replicate b 0).length : ℝ) - 1) / 2)
    have hl : (List.replicate a (0 : ℝ) ++ 1 :: List.replicate b 0).length = a + b + 1 := by simp; omega
    rw [hl] at h2 ⊢
    have : (1 : ℝ) ≤ a + b := by exact_mod_cast hab
    push_cast at h2 ⊢
    nlinarith

example : ([1/2, 1/2] : List ℝ) ≠ [] := by simp
example : 0 < 2 + 3 := by norm_num

/-- C107: without values, `StdDev` is not a number. -/
theorem C107_empty : multinomStdDev ([] : List XR) = XR.nan := by
  simp [multinomStdDev, multinomSquares, XR.div, XR.sqrt, XR.signedInf]

end Gospn
