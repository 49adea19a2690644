/-
What a dataset in memory is, and when a result consists of new maps only.
-/
import Verif.Model.Data

namespace Gospn.Spec

/-- `ks` lists the keys of `m`, each once. -/
def Enumerates (m : VarSet) (ks : List Int) : Prop := ks.Nodup ∧ ∀ k, k ∈ ks ↔ (m k).isSome

/-- `ord` is a possible iteration order for these maps, at every time. -/
def OrdersOf (ord : MapOrder) (xs : List VarSet) : Prop := ∀ t, ∀ x ∈ xs, Enumerates x (ord t x)

/-- In memory `h`, the dataset `D` consists of the instances `xs`. -/
def Holds (h : Mem) (D : List Addr) (xs : List VarSet) : Prop := D.map (fun a => h[a]?) = xs.map some

/-- All maps of memory `h` are in `h'` what they were, and the instances of `D` are different maps that are not in `h`.
So nobody who changes an instance of `D` later changes a map that existed before, or another instance of `D`. -/
def NewMaps (h h' : Mem) (D : List Addr) : Prop := h <+: h' ∧ D.Nodup ∧ ∀ a ∈ D, h.length ≤ a ∧ a < h'.length

/-- The groups in `st` are `out`, a list of instances with labels for each group, made of new maps. -/
def GroupsAre (h : Mem) (st : Groups) (out : List (List (VarSet × Int))) : Prop :=
  List.Forall₂ (fun d o => Holds st.mem d (o.map Prod.fst)) st.data out ∧ st.labels = out.map (·.map Prod.snd) ∧ NewMaps h st.mem st.data.flatten

end Gospn.Spec
