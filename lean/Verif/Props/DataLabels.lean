/-
Theorems about `PartitionByLabels`: C43, data/manipulate.go.
-/
import Verif.Proofs.DataLabels
import Verif.Props.DataParts

set_option linter.unusedSectionVars false
set_option linter.unusedSimpArgs false

namespace Gospn
open Spec

noncomputable section

/-- The number of instances with each label that a part with proportion `x` gets first. -/
def quota (L : List Int) (c : Nat) (x : ℝ) : List Nat := (List.range c).map fun j => ⌊((cls L j).length : ℝ) * x⌋.toNat

theorem quota_get (L : List Int) (c j : Nat) (hj : j < c) (x : ℝ) : ((quota L c x)[j]?).getD 0 = ⌊((cls L j).length : ℝ) * x⌋.toNat := by
  simp [quota, hj]

theorem quota_casc (L : List Int) (c : Nat) (x : ℝ) (hx : 0 ≤ x) :
    cascadeRounding (((List.range c).map fun j => (cls L j).length).map fun (nj : Nat) => GoFloat.floor (GoFloat.mul (GoFloat.ofInt (nj : Int)) (XR.fin x)))
      = (quota L c x).map fun (z : Nat) => (z : Int) := by
  have e : (((List.range c).map fun j => (cls L j).length).map fun (nj : Nat) => GoFloat.floor (GoFloat.mul (GoFloat.ofInt (nj : Int)) (XR.fin x)))
      = ((((quota L c x).map fun (z : Nat) => (z : Int))).map fun (z : ℤ) => (z : ℝ)).map XR.fin := by
    simp only [quota, List.map_map]
    apply List.map_congr_left
    intro j _
    have h0 : 0 ≤ ⌊((cls L j).length : ℝ) * x⌋ := Int.floor_nonneg.2 (mul_nonneg (by positivity) hx)
    simp only [Function.comp_apply, XR.g_floor, XR.g_mul, XR.g_ofInt, XR.mul, XR.floor, Int.cast_natCast]
    congr 1
    exact_mod_cast (congrArg (fun z : ℤ => (z : ℝ)) (Int.toNat_of_nonneg h0)).symm
  rw [e, cascadeRounding_eq]
  have := casc_int ((quota L c x).map fun (z : Nat) => (z : Int)) 0
  simpa using this

theorem quota_sum (L : List Int) (c j : Nat) (p : List ℝ) (hp : ∀ x ∈ p, 0 ≤ x) (hs : p.sum ≤ 1) :
    ((p.map (quota L c)).map fun zs => (zs[j]?).getD 0).sum ≤ (cls L j).length := by
  by_cases hj : j < c
  · have key : ∀ l : List ℝ, (∀ x ∈ l, 0 ≤ x) → ((((l.map (quota L c)).map fun zs => (zs[j]?).getD 0).sum : Nat) : ℝ) ≤ (cls L j).length * l.sum := by
      intro l
      induction l with
      | nil => intro _; simp
      | cons a l ih =>
        intro hl
        have ha := hl a (by simp)
        have h0 : 0 ≤ ⌊((cls L j).length : ℝ) * a⌋ := Int.floor_nonneg.2 (mul_nonneg (by positivity) ha)
        simp only [List.map_cons, List.sum_cons, quota_get L c j hj, Nat.cast_add, mul_add]
        refine add_le_add ?_ (ih fun x hx => hl x (by simp [hx]))
        have h1 : ((⌊((cls L j).length : ℝ) * a⌋.toNat : ℕ) : ℝ) = (⌊((cls L j).length : ℝ) * a⌋ : ℝ) := by
          exact_mod_cast congrArg (fun z : ℤ => (z : ℝ)) (Int.toNat_of_nonneg h0)
        rw [h1]
        exact Int.floor_le _
    have h1 := key p hp
    have h2 : ((cls L j).length : ℝ) * p.sum ≤ (cls L j).length := by
      have : (0 : ℝ) ≤ (cls L j).length := by positivity
      nlinarith
    exact_mod_cast h1.trans h2
  · have : ((p.map (quota L c)).map fun zs => (zs[j]?).getD 0) = (p.map fun _ => 0) := by
      rw [List.map_map]
      apply List.map_congr_left
      intro x _
      have : (quota L c x)[j]? = none := List.getElem?_eq_none (by simp [quota]; omega)
      simp [this]
    rw [this]
    simp

theorem cls_count (L : List Int) (j : Nat) : (cls L j).length = L.count (j : Int) := by
  have : ∀ L : List Int, ((List.range L.length).filter fun u => labAt L u = (j : Int)).length = L.count (j : Int) := by
    intro L
    have e : L = (List.range L.length).map (labAt L) := by
      apply List.ext_getElem
      · simp
      · intro i hi hi'; simp [labAt, hi]
    conv_rhs => rw [e]
    rw [List.count, List.countP_map, List.countP_eq_length_filter]
    congr 1
  exact this L

/-- The run of `PartitionByLabels` as a list of copies: `J` in the first phase, `T` in the second. -/
theorem partitionByLabels_jobs {ord : MapOrder} {perm : Nat → List Nat} {h : Mem} {D : List Addr} {L : List Int} {xs : List VarSet} (c : Nat) (p : List ℝ)
    (hh : Holds h D xs) (ho : OrdersOf ord xs) (hL : L.length = xs.length) (hc : ∀ l ∈ L, 0 ≤ l ∧ l < c)
    (hperm : ∀ j < c, (perm j).Perm (List.range (L.count (j : Int)))) (hp : ∀ x ∈ p, 0 ≤ x) (hs : p.sum ≤ 1) (hne : p ≠ []) :
    ∃ st J T, partitionByLabels ord perm h D L c (p.map XR.fin) = some st ∧ GroupsAre h st (jobsOut xs (J ++ T) p.length) ∧
      Sourced L perm c J ∧ (∀ t ∈ J ++ T, t.1 < p.length ∧ ∃ j, j < c ∧ t.2.2 = ((j : Nat) : Int)) ∧ (∀ j < c, lcount (J ++ T) j = (cls L j).length) ∧
      (∀ i j, glcount J i j = ((((p.map (quota L c))[i]?).getD [])[j]?).getD 0) ∧
      (∀ j, lcount J j = ((p.map (quota L c)).map fun zs => (zs[j]?).getD 0).sum) ∧ ((∀ j < c, lcount J j = (cls L j).length) → T = []) := by
  have hD := Holds.length hh
  have hL' : L.length = D.length := by omega
  have hpl : 0 < p.length := List.length_pos_iff.2 hne
  have hperm' : ∀ j < c, (perm j).Perm (List.range (cls L j).length) := by
    intro j hj; rw [cls_count]; exact hperm j hj
  have hI0 : PInv ord h D p.length c [] ⟨h, List.replicate p.length [], List.replicate p.length []⟩ (List.replicate c (0 : Int)) :=
    ⟨rfl, by simp [lcount], by simp, by simp⟩
  obtain ⟨J, st1, K1, h1, h2, h3, h4, h5⟩ := takeParts_spec hh ho hL' hperm' (p.map (quota L c)) 0 [] _ _ hI0 (by intro j _; simp [lcount]) (by simp)
    (by intro zs hzs; obtain ⟨x, _, rfl⟩ := List.mem_map.1 hzs; simp [quota]) (by simp)
    (by intro j; simpa [lcount] using quota_sum L c j p hp hs)
  simp only [List.nil_append, Nat.zero_le, if_true, Nat.sub_zero] at h2 h3 h4 h5
  have hle : ∀ j < c, lcount J j ≤ (cls L j).length := by
    intro j _; rw [h4]; exact quota_sum L c j p hp hs
  have hst1 : st1.data.length = p.length := by
    obtain ⟨st', g1, g2, _⟩ := runJobs_groups (n := p.length) ho hh J h2.valid
    rw [h2.run] at g1
    cases g1
    rw [g2.length_eq]
    simp [jobsOut]
  obtain ⟨di, hdi, hdi'⟩ := furthest_lt D.length (st1.data.map List.length) (p.map XR.fin) (by simp [hst1]; omega)
  simp only [List.length_map, hst1] at hdi'
  have hcl : ∀ j < c, (cls L j).length ≤ D.length := by
    intro j _
    rw [cls_count, ← hL']
    exact List.count_le_length
  obtain ⟨T, st2, K2, g1, g2, g3, g4⟩ := allLeftovers_spec hh ho hcl hperm' hdi' J st1 K1 h2 hle c (le_refl _)
  obtain ⟨st', e1, e2⟩ := runJobs_groups (n := p.length) ho hh (J ++ T) g2.valid
  rw [g2.run] at e1
  cases e1
  refine ⟨st2, J, T, ?_, e2, h3, ?_, ?_, h5, h4, g4⟩
  · unfold partitionByLabels
    rw [if_neg (by omega), Int.toNat_natCast, classIndices_spec D L c hL' hc]
    simp only [Option.bind_some, List.length_map]
    have eS : (p.map XR.fin).map (fun pi => cascadeRounding ((((List.range c).map fun j => (cls L j).map fun (u : Nat) => (u : Int)).map List.length).map
        fun (nj : Nat) => GoFloat.floor (GoFloat.mul (GoFloat.ofInt (nj : Int)) pi))) = (p.map (quota L c)).map fun zs => zs.map fun (z : Nat) => (z : Int) := by
      rw [List.map_map (f := XR.fin), List.map_map (f := quota L c)]
      apply List.map_congr_left
      intro x hx
      simp only [Function.comp_apply]
      rw [← quota_casc L c x (hp x hx)]
      congr 2
      rw [List.map_map]
      apply List.map_congr_left
      intro j _
      simp
    rw [eS, h1]
    simp only [Option.bind_some]
    rw [hdi, g1]
    rfl
  · intro t ht
    exact ⟨(g2.valid t ht).1, g2.labs t ht⟩
  · intro j hj
    rw [lcount_append, g3, if_pos hj]
    have := hle j hj
    omega

/-- C43, what is always right: `PartitionByLabels` returns parts of new maps, one for each proportion, and the labels of all parts together are the given labels.
Missing: that each instance comes with its own label, which fails for the instances left over by rounding (`C43_refuted`).
Arithmetic is exact. -/
theorem C43_labels_partial {ord : MapOrder} {perm : Nat → List Nat} {h : Mem} {D : List Addr} {L : List Int} {xs : List VarSet} (c : Nat) (p : List ℝ)
    (hh : Holds h D xs) (ho : OrdersOf ord xs) (hL : L.length = xs.length) (hc : ∀ l ∈ L, 0 ≤ l ∧ l < c)
    (hperm : ∀ j < c, (perm j).Perm (List.range (L.count (j : Int)))) (hp : ∀ x ∈ p, 0 ≤ x) (hs : p.sum ≤ 1) (hne : p ≠ []) :
    ∃ st out, partitionByLabels ord perm h D L c (p.map XR.fin) = some st ∧ GroupsAre h st out ∧ out.length = p.length ∧
      (out.flatten.map Prod.snd).Perm L := by
  obtain ⟨st, J, T, h1, h2, _, h4, h5, _⟩ := partitionByLabels_jobs c p hh ho hL hc hperm hp hs hne
  refine ⟨st, _, h1, h2, by simp [jobsOut], ?_⟩
  refine ((jobsOut_flatten xs p.length (J ++ T) fun t ht => (h4 t ht).1).map Prod.snd).trans ?_
  rw [List.map_map, List.perm_iff_count]
  intro a
  conv_lhs => rw [List.count, List.countP_map]
  by_cases ha : ∃ j, j < c ∧ a = ((j : Nat) : Int)
  · obtain ⟨j, hj, rfl⟩ := ha
    rw [← cls_count, ← h5 j hj, lcount]
    apply List.countP_congr
    intro t _
    simp
  · have e1 : (J ++ T).countP ((fun x => x == a) ∘ (Prod.snd ∘ fun j => (jobInst xs j, j.2.2))) = 0 := by
      rw [List.countP_eq_zero]
      intro t ht
      obtain ⟨_, j, hj, he⟩ := h4 t ht
      simp only [Function.comp_apply, beq_iff_eq]
      intro h'
      exact ha ⟨j, hj, by rw [← h', he]⟩
    rw [e1]
    symm
    rw [List.count_eq_zero]
    intro hmem
    have := hc a hmem
    exact ha ⟨a.toNat, by omega, by omega⟩

/-- C43 when every proportion of every class is a whole number, the case in which the documentation promises an exact partitioning:
every instance is in exactly one part, with its own label, and each part has exactly its proportion of each class. -/
theorem C43_exact_partial {ord : MapOrder} {perm : Nat → List Nat} {h : Mem} {D : List Addr} {L : List Int} {xs : List VarSet} (c : Nat) (p : List ℝ)
    (hh : Holds h D xs) (ho : OrdersOf ord xs) (hL : L.length = xs.length) (hc : ∀ l ∈ L, 0 ≤ l ∧ l < c)
    (hperm : ∀ j < c, (perm j).Perm (List.range (L.count (j : Int)))) (hp : ∀ x ∈ p, 0 ≤ x) (hs : p.sum = 1)
    (hint : ∀ j < c, ∀ x ∈ p, ∃ z : ℤ, ((L.count (j : Int) : Nat) : ℝ) * x = z) :
    ∃ st out, partitionByLabels ord perm h D L c (p.map XR.fin) = some st ∧ GroupsAre h st out ∧ out.length = p.length ∧ out.flatten.Perm (xs.zip L) ∧
      ∀ (i : Nat) (x : ℝ) (o : List (VarSet × Int)), p[i]? = some x → out[i]? = some o → ∀ j < c, (((o.map Prod.snd).count (j : Int) : Nat) : ℝ) = (L.count (j : Int) : Nat) * x := by
  have hne : p ≠ [] := by rintro rfl; simp at hs
  obtain ⟨st, J, T, h1, h2, h3, h4, h5, h6, h7, h8⟩ := partitionByLabels_jobs c p hh ho hL hc hperm hp (le_of_eq hs) hne
  have hq : ∀ j < c, ∀ x ∈ p, ((⌊((cls L j).length : ℝ) * x⌋.toNat : ℕ) : ℝ) = (cls L j).length * x := by
    intro j hj x hx
    obtain ⟨z, hz⟩ := hint j hj x hx
    rw [cls_count, hz, Int.floor_intCast]
    have h0 : 0 ≤ z := by
      have : (0 : ℝ) ≤ z := by rw [← hz]; exact mul_nonneg (by positivity) (hp x hx)
      exact_mod_cast this
    exact_mod_cast congrArg (fun w : ℤ => (w : ℝ)) (Int.toNat_of_nonneg h0)
  have hfull : ∀ j < c, lcount J j = (cls L j).length := by
    intro j hj
    have key : ∀ l : List ℝ, (∀ x ∈ l, x ∈ p) → ((((l.map (quota L c)).map fun zs => (zs[j]?).getD 0).sum : Nat) : ℝ) = (cls L j).length * l.sum := by
      intro l
      induction l with
      | nil => intro _; simp
      | cons a l ih =>
        intro hl
        simp only [List.map_cons, List.sum_cons, quota_get L c j hj, Nat.cast_add, mul_add]
        rw [ih fun x hx => hl x (by simp [hx]), hq j hj a (hl a (by simp))]
    have := key p (fun _ h => h)
    rw [← h7, hs, mul_one] at this
    exact_mod_cast this
  have hT := h8 hfull
  subst hT
  simp only [List.append_nil] at h2 h4 h5
  refine ⟨st, _, h1, h2, by simp [jobsOut], ?_, ?_⟩
  · refine (jobsOut_flatten xs p.length J fun t ht => (h4 t ht).1).trans ?_
    have hkey : ∀ t ∈ J, (fun t : Job => t.2.2.toNat) t < c := by
      intro t ht
      obtain ⟨_, j, hj, he⟩ := h4 t ht
      simp [he, hj]
    refine ((filter_flatMap_perm (fun t : Job => t.2.2.toNat) c J hkey).map _).symm.trans ?_
    rw [List.map_flatMap]
    have hgrp : ∀ j < c, ((J.filter fun t => decide (t.2.2.toNat = j)).map fun t => (jobInst xs t, t.2.2)).Perm
        ((cls L j).map fun u => ((xs[u]?).getD VarSet.empty, labAt L u)) := by
      intro j hj
      have e1 : (J.filter fun t => decide (t.2.2.toNat = j)) = J.filter fun t => decide (t.2.2 = (j : Int)) := by
        apply List.filter_congr
        intro t ht
        obtain ⟨_, j', hj', he⟩ := h4 t ht
        simp [he]
      have hfl := h3 j hj
      rw [hfull j hj, List.take_of_length_le (by
        rw [List.length_map, (hperm j hj).length_eq, List.length_range, cls_count])] at hfl
      have e2 : ((J.filter fun t => decide (t.2.2 = (j : Int))).map fun t => (jobInst xs t, t.2.2))
          = ((J.filter fun t => decide (t.2.2 = (j : Int))).map fun t => t.2.1).map fun u => ((xs[u]?).getD VarSet.empty, (j : Int)) := by
        rw [List.map_map]
        apply List.map_congr_left
        intro t ht
        have := (List.mem_filter.1 ht).2
        simp only [decide_eq_true_eq] at this
        simp [jobInst, this]
      rw [e1, e2, hfl, List.map_map]
      have e3 : (cls L j).map (fun u => ((xs[u]?).getD VarSet.empty, labAt L u)) = (cls L j).map fun u => ((xs[u]?).getD VarSet.empty, (j : Int)) := by
        apply List.map_congr_left
        intro u hu
        rw [(cls_lt hu).2]
      rw [e3]
      have hpj := hperm j hj
      rw [← cls_count] at hpj
      refine (hpj.map _).trans (List.Perm.of_eq ?_)
      apply List.ext_getElem
      · simp
      · intro i hi hi'
        have : i < (cls L j).length := by simpa using hi'
        simp [this]
    have hflat : ∀ l : List Nat, (∀ j ∈ l, j < c) → (l.flatMap fun g => (J.filter fun t => decide (t.2.2.toNat = g)).map fun t => (jobInst xs t, t.2.2)).Perm
        (l.flatMap fun g => (cls L g).map fun u => ((xs[u]?).getD VarSet.empty, labAt L u)) := by
      intro l
      induction l with
      | nil => intro _; simp
      | cons a l ih =>
        intro hl
        simp only [List.flatMap_cons]
        exact (hgrp a (hl a (by simp))).append (ih fun j hj => hl j (by simp [hj]))
    refine (hflat (List.range c) fun j hj => List.mem_range.1 hj).trans ?_
    rw [← range_zip xs L hL, ← List.map_flatMap]
    apply List.Perm.map
    rw [← hL]
    have e4 : ((List.range c).flatMap fun g => cls L g) = (List.range c).flatMap fun g => (List.range L.length).filter fun u => decide ((labAt L u).toNat = g) := by
      congr 1
      funext g
      unfold cls
      apply List.filter_congr
      intro u hu
      have hu' := List.mem_range.1 hu
      have := hc L[u] (List.getElem_mem hu')
      have e5 : labAt L u = L[u] := by simp [labAt, hu']
      rw [e5]
      simp only [decide_eq_decide]
      omega
    have e6 : ((List.range c).flatMap fun g => cls L g).Perm (List.range L.length) := by
      rw [e4]
      apply filter_flatMap_perm (fun u => (labAt L u).toNat) c
      intro u hu
      have hu' := List.mem_range.1 hu
      have := hc L[u] (List.getElem_mem hu')
      have e5 : labAt L u = L[u] := by simp [labAt, hu']
      simp only [e5]
      omega
    exact e6
  · intro i x o hx hoo j hj
    have hi : i < p.length := (List.getElem?_eq_some_iff.1 hx).1
    simp only [jobsOut, List.getElem?_map, List.getElem?_range hi, Option.map_some, Option.some.injEq] at hoo
    subst hoo
    have hxp := List.mem_of_getElem? hx
    rw [← cls_count L, ← hq j hj x hxp, List.map_map, List.count, List.countP_map, List.countP_filter]
    have h9 := h6 i j
    simp only [List.getElem?_map, hx, Option.map_some, Option.getD_some, quota_get L c j hj] at h9
    rw [← h9]
    congr 1
    unfold glcount
    apply List.countP_congr
    intro t _
    simp [and_comm]

/-- Two different instances. -/
def two : List VarSet := [VarSet.empty.set 0 7, VarSet.empty.set 0 8]

theorem two_holds : Holds two [0, 1] two := rfl

theorem two_orders : OrdersOf (fun _ _ => [0]) two := by
  intro t x hx
  simp only [two, List.mem_cons, List.not_mem_nil, or_false] at hx
  rcases hx with rfl | rfl <;>
  · refine ⟨by simp, fun k => ?_⟩
    by_cases hk : k = 0 <;> simp [VarSet.set, VarSet.empty, hk]

/-- C43 fails: two instances labelled 1 and 0 are divided half and half. Each class has one instance, so both are left over; then the first instance is given out twice,
once with the label of the second, and the second instance is lost. -/
theorem C43_refuted : ∃ st, partitionByLabels (fun _ _ => [0]) (fun _ => [0]) two [0, 1] [1, 0] 2 ([(1 / 2 : ℝ), 1 / 2].map XR.fin) = some st ∧
    GroupsAre two st [[(VarSet.empty.set 0 7, 0), (VarSet.empty.set 0 7, 1)], []] ∧ VarSet.empty.set 0 7 ≠ VarSet.empty.set 0 8 := by
  obtain ⟨st, g1, g2⟩ := runJobs_groups (n := 2) two_orders two_holds [(0, 0, 0), (0, 0, 1)] (by decide)
  refine ⟨st, ?_, g2, ?_⟩
  · unfold partitionByLabels
    rw [if_neg (by decide)]
    have e1 : classIndices [0, 1] [1, 0] (2 : Int).toNat = some [[1], [0]] := rfl
    have h0 : ⌊((1 : ℕ) : ℝ) * (1 / 2)⌋ = 0 := by norm_num
    have e2 : cascadeRounding ([1, 1].map fun (nj : Nat) => GoFloat.floor (GoFloat.mul (GoFloat.ofInt (nj : Int)) (XR.fin (1 / 2)))) = [0, 0] := by
      have := casc_int [0, 0] 0
      simp only [List.map_cons, List.map_nil, XR.g_floor, XR.g_mul, XR.g_ofInt, XR.mul, XR.floor, Int.cast_natCast, h0]
      have h3 := cascadeRounding_eq [((0 : ℤ) : ℝ), ((0 : ℤ) : ℝ)]
      simp only [List.map_cons, List.map_nil] at h3 this
      rw [h3]
      simpa using this
    have e3 : furthest 2 [0, 0] ([(1 / 2 : ℝ), 1 / 2].map XR.fin) = 0 := by
      simp [furthest, XR.div, XR.abs, XR.sub, XR.lt, XR.signedInf, XR.add, XR.neg]
    rw [e1]
    simp only [Option.bind_some, List.map_cons, List.map_nil, List.length_cons, List.length_nil, zero_add] at e2 e3 ⊢
    rw [e2]
    rw [← g1]
    change (goFor 2 _ fun st i => leftovers _ _ _ (furthest 2 [0, 0] [XR.fin (1 / 2), XR.fin (1 / 2)]) i st).map (·.1) = _
    rw [e3]
    rfl
  · intro h
    have := congrFun h 0
    simp [VarSet.set] at this

/-- The hypotheses of `C43_labels_partial` hold for these two instances and labels. -/
example : ∃ st out, partitionByLabels (fun _ _ => [0]) (fun _ => [0]) two [0, 1] [1, 0] (2 : Nat) ([(1 / 3 : ℝ), 1 / 2].map XR.fin) = some st ∧ GroupsAre two st out ∧
    out.length = 2 ∧ (out.flatten.map Prod.snd).Perm [1, 0] :=
  C43_labels_partial 2 [1 / 3, 1 / 2] two_holds two_orders rfl (by decide) (by decide)
    (by intro x hx; simp only [List.mem_cons, List.not_mem_nil, or_false] at hx; rcases hx with rfl | rfl <;> norm_num) (by norm_num) (by simp)

/-- The hypotheses of `C43_exact_partial` hold for five instances, four of class 0 and one of class 1, with proportions 1 and 0. -/
example : ∃ st out, partitionByLabels (fun _ _ => [1, 0]) (fun j => if j = 0 then [2, 0, 3, 1] else [0]) five (List.range 5) [0, 0, 1, 0, 0] (2 : Nat)
      ([(1 : ℝ), 0].map XR.fin) = some st ∧ GroupsAre five st out ∧ out.flatten.Perm (five.zip [0, 0, 1, 0, 0]) := by
  obtain ⟨st, out, h1, h2, _, h3, _⟩ := C43_exact_partial (perm := fun j => if j = 0 then [2, 0, 3, 1] else [0]) 2 [1, 0] five_holds five_orders (L := [0, 0, 1, 0, 0]) rfl (by decide) (by decide)
    (by intro x hx; simp only [List.mem_cons, List.not_mem_nil, or_false] at hx; rcases hx with rfl | rfl <;> norm_num) (by norm_num)
    (by
      intro j _ x hx
      simp only [List.mem_cons, List.not_mem_nil, or_false] at hx
      rcases hx with rfl | rfl
      · exact ⟨_, by rw [mul_one]; exact (Int.cast_natCast _).symm⟩
      · exact ⟨0, by simp⟩)
  exact ⟨st, out, h1, h2, h3⟩

end
end Gospn
