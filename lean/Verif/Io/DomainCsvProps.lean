import Verif.Io.DomainCsv
import Verif.Io.CsvProps

/-!
# C110: written operational and defect influence domains

## Specification
-/
namespace Verif.DomainCsv

open Verif.Csv

/-- A value that can be part of delimited data. -/
def Plain (v : List Char) : Prop := '\n' ∉ v ∧ ',' ∉ v

/-- A parameter point of the dimensions whose numbers are plain. -/
def Sample.Fits (s : Sample) (dims : List Sweep) : Prop :=
  s.values.length = dims.length ∧ (∀ v ∈ s.values, Plain v) ∧ Plain s.temperature

/-- The first line: the names of the dimensions and of the other columns. -/
def title (withTemp : Bool) (dims : List Sweep) : List (List Char) :=
  dims.map Sweep.name ++ ["operational status".toList] ++ (if withTemp then ["critical temperature".toList] else [])

/-- The line of a sample: its values, its tag and its temperature. -/
def record (withTemp : Bool) (p : Params) (s : Sample) : List (List Char) :=
  s.values ++ [if s.operational then p.opTag else p.nonOpTag] ++ (if withTemp then [s.temperature] else [])

/-- The samples that are to be written. -/
def wanted (p : Params) (samples : List Sample) : List Sample :=
  if p.operationalOnly then samples.filter Sample.operational else samples

/-! ## Lemmas -/

theorem header_eq (withTemp : Bool) (dims : List Sweep) (h1 : 1 ≤ dims.length) (h3 : dims.length ≤ 3) :
    header withTemp dims = some (title withTemp dims) := by
  match dims, h1, h3 with
  | [a], _, _ => rfl
  | [a, b], _, _ => rfl
  | [a, b, c], _, _ => rfl

theorem row_eq (withTemp : Bool) (dims : List Sweep) (p : Params) (s : Sample) (h1 : 1 ≤ dims.length) (h3 : dims.length ≤ 3)
    (hs : s.values.length = dims.length) : row withTemp dims.length p s = some (record withTemp p s) := by
  obtain ⟨values, operational, temperature⟩ := s
  dsimp only at hs
  rw [← hs] at h1 h3 ⊢
  match values, h1, h3 with
  | [a], _, _ => rfl
  | [a, b], _, _ => rfl
  | [a, b, c], _, _ => rfl

theorem wanted_cons (p : Params) (s : Sample) (l : List Sample) :
    wanted p (s :: l) = if p.operationalOnly && !s.operational then wanted p l else s :: wanted p l := by
  unfold wanted
  cases p.operationalOnly <;> cases h : s.operational <;> simp [h]

theorem rows_eq (withTemp : Bool) (dims : List Sweep) (p : Params) (h1 : 1 ≤ dims.length) (h3 : dims.length ≤ 3) :
    ∀ samples : List Sample, (∀ s ∈ samples, s.values.length = dims.length) →
      rows withTemp dims.length p samples = some ((wanted p samples).map (record withTemp p))
  | [], _ => by simp [rows, wanted]
  | s :: l, hs => by
    rw [rows, wanted_cons, rows_eq withTemp dims p h1 h3 l fun t ht => hs t (List.mem_cons_of_mem _ ht)]
    split
    · rfl
    · rw [row_eq withTemp dims p s h1 h3 (hs s (by simp))]
      rfl

theorem plain_name (d : Sweep) : Plain d.name := by
  cases d <;> exact ⟨by decide +kernel, by decide +kernel⟩

theorem plain_title (withTemp : Bool) (dims : List Sweep) : ∀ v ∈ title withTemp dims, Plain v := by
  intro v hv
  unfold title at hv
  rcases List.mem_append.1 hv with hv | hv
  · rcases List.mem_append.1 hv with hv | hv
    · obtain ⟨d, _, rfl⟩ := List.mem_map.1 hv
      exact plain_name d
    · rw [List.mem_singleton] at hv
      rw [hv]
      exact ⟨by decide +kernel, by decide +kernel⟩
  · cases withTemp
    · cases hv
    · rw [if_pos rfl, List.mem_singleton] at hv
      rw [hv]
      exact ⟨by decide +kernel, by decide +kernel⟩

theorem plain_record (withTemp : Bool) (p : Params) (s : Sample) (dims : List Sweep) (hs : s.Fits dims) (h1 : Plain p.opTag)
    (h0 : Plain p.nonOpTag) : ∀ v ∈ record withTemp p s, Plain v := by
  intro v hv
  unfold record at hv
  rcases List.mem_append.1 hv with hv | hv
  · rcases List.mem_append.1 hv with hv | hv
    · exact hs.2.1 v hv
    · rw [List.mem_singleton] at hv
      rw [hv]
      split
      · exact h1
      · exact h0
  · cases withTemp
    · cases hv
    · rw [if_pos rfl, List.mem_singleton] at hv
      rw [hv]
      exact hs.2.2

theorem wanted_sub (p : Params) (samples : List Sample) : ∀ s ∈ wanted p samples, s ∈ samples := by
  intro s hs
  unfold wanted at hs
  split at hs
  · exact (List.mem_filter.1 hs).1
  · exact hs

/-! ## Theorems -/

/-- C110. For one to three dimensions, reading the written text gives the names of the columns and then, in order, the values, the
tag and the temperature of each sample; if only operational samples are to be written, exactly these. -/
theorem C110_operational (withTemp : Bool) (dims : List Sweep) (p : Params) (samples : List Sample) (h1 : 1 ≤ dims.length)
    (h3 : dims.length ≤ 3) (hs : ∀ s ∈ samples, s.Fits dims) (ht : Plain p.opTag) (hn : Plain p.nonOpTag) :
    ∃ text, writeOperational withTemp dims p samples = some text ∧
      readBack text = title withTemp dims :: (wanted p samples).map (record withTemp p) := by
  refine ⟨write (title withTemp dims :: (wanted p samples).map (record withTemp p)), ?_, ?_⟩
  · unfold writeOperational
    rw [if_neg (by omega), header_eq withTemp dims h1 h3, rows_eq withTemp dims p h1 h3 samples fun s h => (hs s h).1]
  · have hp : ∀ l ∈ title withTemp dims :: (wanted p samples).map (record withTemp p), ∀ v ∈ l, Plain v := by
      intro l hl
      rcases List.mem_cons.1 hl with rfl | hl
      · exact plain_title withTemp dims
      · obtain ⟨s, h, rfl⟩ := List.mem_map.1 hl
        exact plain_record withTemp p s dims (hs s (wanted_sub p samples s h)) ht hn
    refine C108_roundtrip _ ?_ (fun l hl v hv => (hp l hl v hv).1) (fun l hl v hv => (hp l hl v hv).2)
    intro l hl
    rcases List.mem_cons.1 hl with rfl | hl
    · intro h
      have h := congrArg List.length h
      rw [title, List.length_append, List.length_append, List.length_singleton, List.length_nil] at h
      omega
    · obtain ⟨s, _, rfl⟩ := List.mem_map.1 hl
      intro h
      have h := congrArg List.length h
      rw [record, List.length_append, List.length_append, List.length_singleton, List.length_nil] at h
      omega

/-- C110. Domains without dimensions or with more than three are refused. -/
theorem C110_refused (withTemp : Bool) (dims : List Sweep) (p : Params) (samples : List Sample)
    (h : dims.length = 0 ∨ 3 < dims.length) : writeOperational withTemp dims p samples = none := by
  unfold writeOperational
  rw [if_pos h]

/-- C110. Reading the text of a defect influence domain gives the position and the tag of each of its elements in order. -/
theorem C110_influence (tag nonTag : List Char) (ps : List Position) (hp : ∀ d ∈ ps, Plain d.x ∧ Plain d.y) (ht : Plain tag)
    (hn : Plain nonTag) : readBack (writeInfluence tag nonTag ps) =
      ["x".toList, "y".toList, "operational status".toList] ::
        ps.map (fun d => [d.x, d.y, if d.influential then tag else nonTag]) := by
  have h : ∀ l ∈ ["x".toList, "y".toList, "operational status".toList] ::
      ps.map (fun d => [d.x, d.y, if d.influential then tag else nonTag]), l ≠ [] ∧ ∀ v ∈ l, Plain v := by
    intro l hl
    rcases List.mem_cons.1 hl with rfl | hl
    · refine ⟨by simp, fun v hv => ?_⟩
      simp only [List.mem_cons, List.not_mem_nil, or_false] at hv
      rcases hv with rfl | rfl | rfl <;> exact ⟨by decide +kernel, by decide +kernel⟩
    · obtain ⟨d, hd, rfl⟩ := List.mem_map.1 hl
      refine ⟨by simp, fun v hv => ?_⟩
      simp only [List.mem_cons, List.not_mem_nil, or_false] at hv
      rcases hv with rfl | rfl | rfl
      · exact (hp d hd).1
      · exact (hp d hd).2
      · split
        · exact ht
        · exact hn
  exact C108_roundtrip _ (fun l hl => (h l hl).1) (fun l hl v hv => ((h l hl).2 v hv).1) (fun l hl v hv => ((h l hl).2 v hv).2)

/-! ## Examples -/

/-- Two samples in two dimensions. -/
def sample : List Sample := [⟨[['5'], ['4', '.', '5']], true, ['9']⟩, ⟨[['6'], ['5']], false, ['0']⟩]

example : ∀ s ∈ sample, s.Fits [.epsilonR, .lambdaTf] := by unfold Sample.Fits Plain; decide +kernel

example : Plain ['1'] ∧ Plain ['0'] := by unfold Plain; decide +kernel

example : (writeOperational true [.epsilonR, .lambdaTf] ⟨['1'], ['0'], true⟩ sample).map String.ofList =
    some "epsilon_r,lambda_tf,operational status,critical temperature\n5,4.5,1,9\n" := by decide +kernel

end Verif.DomainCsv
