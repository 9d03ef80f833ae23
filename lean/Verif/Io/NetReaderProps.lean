import Verif.Io.NetReader
import Mathlib.Data.List.Basic
import Mathlib.Data.List.Sort

/-!
# C112: reading of networks

## Specification
-/
namespace Verif.NetReader

variable {N : Type}

/-- The files a name stands for. -/
def filesOf : Target N → List (File N)
  | .missing => []
  | .special => []
  | .file f => [f]
  | .directory fs => fs.filter File.regular

/-- A file that is to be read: Verilog and AIGER files, and BLIF files unless the network type does not support them. -/
def Readable (noBlif : Bool) (f : File N) : Prop := f.ext = .verilog ∨ f.ext = .aig ∨ (f.ext = .blif ∧ noBlif = false)

instance (noBlif : Bool) (f : File N) : Decidable (Readable noBlif f) := by unfold Readable; infer_instance

/-- The network of a file. -/
def networkOf (noBlif : Bool) (f : File N) : Option N :=
  if Readable noBlif f then (match f.parse with | .network n => some n | _ => none) else none

/-- The message for a file of a known format that gives no network. -/
def messageOf (noBlif : Bool) (f : File N) : Option Msg :=
  if f.ext = .other then none
  else if Readable noBlif f then (match f.parse with | .network _ => none | .error => some .parsing | .exception => some .unsupported)
  else some .blif

/-- The message for a name that points to nothing that can be read. -/
def targetMessage : Target N → List Msg
  | .missing => [.missing]
  | .special => [.notRegular]
  | _ => []

/-! ## Lemmas -/

theorem handle_eq (noBlif : Bool) (r : Reader N) (f : File N) :
    r.handle noBlif f = ⟨r.networks ++ (networkOf noBlif f).toList, r.out ++ (messageOf noBlif f).toList⟩ := by
  obtain ⟨reg, ext, parse⟩ := f
  cases ext <;> cases parse <;> cases noBlif <;>
    simp [Reader.handle, Reader.read, networkOf, messageOf, Readable]

theorem foldl_eq (noBlif : Bool) : ∀ (fs : List (File N)) (r : Reader N), fs.foldl (Reader.handle noBlif) r =
    ⟨r.networks ++ fs.filterMap (networkOf noBlif), r.out ++ fs.filterMap (messageOf noBlif)⟩
  | [], r => by simp
  | f :: fs, r => by
    rw [List.foldl_cons, foldl_eq noBlif fs, handle_eq, List.filterMap_cons, List.filterMap_cons]
    cases networkOf noBlif f <;> cases messageOf noBlif f <;> simp

theorem filterMap_valid {A : Type} (g : File N → Option A) (hg : ∀ f, validExt f.ext = false → g f = none) (fs : List (File N)) :
    (fs.filter fun f => validExt f.ext).filterMap g = fs.filterMap g := by
  induction fs with
  | nil => rfl
  | cons f fs ih =>
    rw [List.filter_cons]
    by_cases h : validExt f.ext = true
    · rw [if_pos h, List.filterMap_cons, List.filterMap_cons, ih]
    · rw [if_neg h, List.filterMap_cons, hg f (Bool.eq_false_iff.2 h), ih]

theorem collect_eq (t : Target N) : collect t = ((filesOf t).filter (fun f => validExt f.ext), targetMessage t) := by
  cases t with
  | missing => rfl
  | special => rfl
  | file f => simp [collect, filesOf, targetMessage, List.filter_cons]
  | directory fs =>
    simp only [collect, filesOf, targetMessage, List.filter_filter]
    congr 2
    funext f
    exact Bool.and_comm _ _

theorem networkOf_invalid (noBlif : Bool) (f : File N) (h : validExt f.ext = false) : networkOf noBlif f = none := by
  obtain ⟨reg, ext, parse⟩ := f
  cases ext <;> simp [validExt] at h
  simp [networkOf, Readable]

theorem messageOf_invalid (noBlif : Bool) (f : File N) (h : validExt f.ext = false) : messageOf noBlif f = none := by
  obtain ⟨reg, ext, parse⟩ := f
  cases ext <;> simp [validExt] at h
  simp [messageOf]

/-! ## Theorems -/

/-- C112. The networks are those of the readable files that the name stands for, in their order. -/
theorem C112_networks (noBlif : Bool) (t : Target N) :
    (Reader.open noBlif t).networks = (filesOf t).filterMap (networkOf noBlif) := by
  unfold Reader.open
  rw [foldl_eq, collect_eq, filterMap_valid _ (networkOf_invalid noBlif), List.nil_append]

/-- C112. There is one message for each file of a known format that gives no network, and one for a name that points to nothing. -/
theorem C112_messages (noBlif : Bool) (t : Target N) :
    (Reader.open noBlif t).out = targetMessage t ++ (filesOf t).filterMap (messageOf noBlif) := by
  unfold Reader.open
  rw [foldl_eq, collect_eq, filterMap_valid _ (messageOf_invalid noBlif)]

/-- C112. Each file of a known format gives either a network or a message. -/
theorem C112_either (noBlif : Bool) (f : File N) (h : f.ext ≠ .other) :
    (networkOf noBlif f).isSome ↔ messageOf noBlif f = none := by
  obtain ⟨reg, ext, parse⟩ := f
  cases ext <;> cases parse <;> cases noBlif <;> simp_all [networkOf, messageOf, Readable]

/-- C112. Sorting gives the same networks in ascending order of their numbers of gates; without sorting they are given as they are.
Missing: the documented order by numbers of vertices, see C112_false_vertices. -/
theorem C112_sorted_partial (gates : N → Nat) (r : Reader N) :
    ((r.getNetworks gates true).1.Perm r.networks ∧
      (r.getNetworks gates true).1.Pairwise (fun a b => gates a ≤ gates b)) ∧ (r.getNetworks gates false).1 = r.networks := by
  refine ⟨⟨List.mergeSort_perm _ _, ?_⟩, rfl⟩
  have h := List.pairwise_mergeSort (le := fun a b => decide (gates a ≤ gates b))
    (fun a b c h1 h2 => by simp only [decide_eq_true_eq] at h1 h2 ⊢; omega)
    (fun a b => by simp only [Bool.or_eq_true, decide_eq_true_eq]; omega) r.networks
  exact h.imp fun h => by simpa using h

/-- C112. The networks, pairs of numbers of vertices and gates here, are not sorted by their numbers of vertices. -/
theorem C112_false_vertices : ∃ r : Reader (Nat × Nat), (r.getNetworks Prod.snd true).1 = [(9, 1), (5, 2)] :=
  ⟨⟨[(9, 1), (5, 2)], []⟩, by simp [Reader.getNetworks, List.mergeSort, List.MergeSort.Internal.splitInTwo, List.merge]⟩

/-- C112. After a sorted access, unsorted ones give the sorted networks as well: the order of the files is lost. -/
theorem C112_sticky (gates : N → Nat) (r : Reader N) :
    ((r.getNetworks gates true).2.getNetworks gates false).1 = (r.getNetworks gates true).1 := rfl

/-! ## Examples -/

/-- A directory. -/
def sample : Target Nat := .directory [⟨true, .verilog, .network 7⟩, ⟨false, .verilog, .network 1⟩, ⟨true, .blif, .network 3⟩,
  ⟨true, .aig, .error⟩, ⟨true, .other, .exception⟩]

example : (Reader.open true sample).networks = [7] ∧ (Reader.open true sample).out = [.blif, .parsing] := by decide +kernel

example : (Reader.open false sample).networks = [7, 3] := by decide +kernel

end Verif.NetReader
