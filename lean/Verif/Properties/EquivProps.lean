import Verif.Properties.Equiv

/-!
# C45: equivalence checking reports the right kind of equivalence
-/
namespace Verif.Equiv

open Verif.Layouts Verif.Clocking Verif.GateLevel

/-! ## Specification -/

/-- The answers of the SAT solver are right. It may give up. -/
structure Sound (solve : Solver) : Prop where
  unsat : ∀ n f, solve n f = some none → ∀ xs, xs.length = n → f xs = false
  sat : ∀ n f x, solve n f = some (some x) → x.length = n ∧ f x = true

/-- Designs yield one value per output. -/
def Io.Proper (a : Io) : Prop := ∀ xs, xs.length = a.pis → (a.fn xs).length = a.pos

/-- Same interface and the same outputs for all inputs. -/
def LogicallyEquivalent (a b : Design) : Prop :=
  a.io.pis = b.io.pis ∧ a.io.pos = b.io.pos ∧ ∀ xs, xs.length = a.io.pis → a.io.fn xs = b.io.fn xs

/-! ## Lemmas -/

private theorem any_zip : ∀ a b : List Bool, a.length = b.length → ((a.zip b).any (fun p => p.1 != p.2) = true ↔ a ≠ b)
  | [], [], _ => by simp
  | a :: as, b :: bs, h => by
    have := any_zip as bs (by simpa using h)
    simp only [List.zip_cons_cons, List.any_cons, Bool.or_eq_true, this]
    by_cases e : a = b <;> simp [e]

private theorem any_zip' (a b : List Bool) (h : a.length = b.length) : (a.zip b).any (fun p => p.1 != p.2) = false ↔ a = b := by
  have := any_zip a b h
  cases e : (a.zip b).any (fun p => p.1 != p.2) with
  | true => simp [this.1 e]
  | false => rw [e] at this; simp at this; simp [this]

section
variable {sort : List CritPath.Info → List CritPath.Info} {solve : Solver} {spec impl : Design}

private theorem cases_of (hs : Sound solve) (hp : spec.io.Proper) (hq : impl.io.Proper) {r : EqType × Stats}
    (h : check sort solve spec impl = some r) :
    (r.1 = r.2.eq) ∧
    ((r.1 = .no ∧ r.2.counterExample = [] ∧ ((spec.hasDrvs = true ∨ impl.hasDrvs = true ∨ ¬ LogicallyEquivalent spec impl) ∨
        ∃ n f, miter spec.io impl.io = some (n, f) ∧ solve n f = none)) ∨
     (spec.hasDrvs = false ∧ impl.hasDrvs = false ∧ spec.io.pis = impl.io.pis ∧ spec.io.pos = impl.io.pos ∧
       ((r.1 = .no ∧ r.2.counterExample.length = spec.io.pis ∧
          spec.io.fn r.2.counterExample ≠ impl.io.fn r.2.counterExample) ∨
        (LogicallyEquivalent spec impl ∧ ∃ ts ti, spec.throughput sort = some ts ∧ impl.throughput sort = some ti ∧
          r.2.tpSpec = ts ∧ r.2.tpImpl = ti ∧ (r.1 = if ts = ti then .strong else .weak))))) := by
  unfold check at h
  cases h1 : spec.hasDrvs with
  | true => rw [h1] at h; simp at h; subst h; simp
  | false =>
  rw [h1] at h
  cases h2 : impl.hasDrvs with
  | true => rw [h2] at h; simp at h; subst h; simp
  | false =>
  rw [h2] at h
  simp only [Bool.false_eq_true, if_false] at h
  cases h3 : miter spec.io impl.io with
  | none =>
    rw [h3] at h
    simp at h
    subst h
    refine ⟨rfl, .inl ⟨rfl, rfl, .inl (.inr (.inr ?_))⟩⟩
    rintro ⟨e1, e2, _⟩
    simp [miter, e1, e2] at h3
  | some nf =>
  obtain ⟨n, f⟩ := nf
  rw [h3] at h
  simp only at h
  have hm := h3
  unfold miter at hm
  split_ifs at hm with hio
  push Not at hio
  simp only [Option.some.injEq, Prod.mk.injEq] at hm
  obtain ⟨rfl, rfl⟩ := hm
  cases h4 : solve spec.io.pis (fun xs => ((spec.io.fn xs).zip (impl.io.fn xs)).any (fun p => p.1 != p.2)) with
  | none =>
    rw [h4] at h
    simp at h
    subst h
    exact ⟨rfl, .inl ⟨rfl, rfl, .inr ⟨_, _, rfl, h4⟩⟩⟩
  | some o =>
  rw [h4] at h
  have hlen : ∀ xs : List Bool, xs.length = spec.io.pis → (spec.io.fn xs).length = (impl.io.fn xs).length := by
    intro xs hx
    rw [hp xs hx, hq xs (by rw [hx, hio.1]), hio.2]
  cases o with
  | some x =>
    simp at h
    subst h
    obtain ⟨hx, hf⟩ := hs.sat _ _ _ h4
    exact ⟨rfl, .inr ⟨rfl, rfl, hio.1, hio.2, .inl ⟨rfl, hx, (any_zip _ _ (hlen x hx)).1 hf⟩⟩⟩
  | none =>
    have heq : LogicallyEquivalent spec impl :=
      ⟨hio.1, hio.2, fun xs hx => (any_zip' _ _ (hlen xs hx)).1 (hs.unsat _ _ h4 xs hx)⟩
    simp only at h
    cases h5 : spec.throughput sort with
    | none => rw [h5] at h; simp at h
    | some ts =>
    cases h6 : impl.throughput sort with
    | none => rw [h5, h6] at h; simp at h
    | some ti =>
    rw [h5, h6] at h
    simp only [Option.some.injEq] at h
    subst h
    refine ⟨rfl, .inr ⟨rfl, rfl, hio.1, hio.2, .inr ⟨heq, ts, ti, rfl, rfl, rfl, rfl, ?_⟩⟩⟩
    have : CritPath.absDiff ts ti = 0 ↔ ts = ti := by unfold CritPath.absDiff; split_ifs <;> omega
    by_cases e : ts = ti
    · rw [if_pos e, if_neg (by simpa using this.2 e)]
    · rw [if_neg e, if_pos (by simpa using mt this.1 e)]

/-! ## Properties -/

/-- C45: unless the solver gives up, NO is reported iff one of the designs is a layout with design rule violations or the
designs are not logically equivalent. -/
theorem C45_no_iff (hs : Sound solve) (hp : spec.io.Proper) (hq : impl.io.Proper) (hc : ∀ n f, solve n f ≠ none)
    {r : EqType × Stats} (h : check sort solve spec impl = some r) :
    r.1 = .no ↔ spec.hasDrvs = true ∨ impl.hasDrvs = true ∨ ¬ LogicallyEquivalent spec impl := by
  obtain ⟨-, hr⟩ := cases_of hs hp hq h
  rcases hr with ⟨h1, -, h2 | ⟨n, f, -, h2⟩⟩ | ⟨h1, h2, h3, h4, ⟨h5, hl, hne⟩ | ⟨he, ts, ti, -, -, -, -, h5⟩⟩
  · exact iff_of_true h1 h2
  · exact absurd h2 (hc n f)
  · refine iff_of_true h5 (.inr (.inr ?_))
    rintro ⟨-, -, hh⟩
    exact hne (hh _ hl)
  · refine iff_of_false ?_ ?_
    · rw [h5]; split_ifs <;> simp
    · rw [h1, h2]; simp [he]

/-- C45: even if the solver gives up, STRONG or WEAK equivalence is only reported for logically equivalent designs without
design rule violations: STRONG if their throughputs are the same, WEAK if they differ. Networks have throughput 1. -/
theorem C45_equivalence_sound (hs : Sound solve) (hp : spec.io.Proper) (hq : impl.io.Proper)
    {r : EqType × Stats} (h : check sort solve spec impl = some r) (hne : r.1 ≠ .no) :
    spec.hasDrvs = false ∧ impl.hasDrvs = false ∧ LogicallyEquivalent spec impl ∧
    ∃ ts ti, spec.throughput sort = some ts ∧ impl.throughput sort = some ti ∧ r.2.tpSpec = ts ∧ r.2.tpImpl = ti ∧
      (r.1 = .strong ↔ ts = ti) ∧ (r.1 = .weak ↔ ts ≠ ti) := by
  obtain ⟨-, hr⟩ := cases_of hs hp hq h
  rcases hr with ⟨h1, -⟩ | ⟨h1, h2, h3, h4, ⟨h5, -⟩ | ⟨he, ts, ti, e1, e2, e3, e4, h5⟩⟩
  · exact absurd h1 hne
  · exact absurd h5 hne
  · refine ⟨h1, h2, he, ts, ti, e1, e2, e3, e4, ?_⟩
    rw [h5]
    split_ifs with e <;> simp [e]

/-- C45: a design that is logically equivalent to a network is strongly equivalent iff its throughput is 1/1, and weakly
equivalent otherwise. -/
theorem C45_strong_iff_throughput_one (hs : Sound solve) (io : Io) (hp : io.Proper) (hq : impl.io.Proper)
    {r : EqType × Stats} (h : check sort solve (.network io) impl = some r) (hne : r.1 ≠ .no) :
    (r.1 = .strong ↔ impl.throughput sort = some 1) ∧ (r.1 = .weak ↔ impl.throughput sort ≠ some 1) ∧ r.2.tpSpec = 1 := by
  obtain ⟨-, -, -, ts, ti, e1, e2, e3, -, h1, h2⟩ := C45_equivalence_sound (spec := .network io) hs hp hq h hne
  simp only [Design.throughput, Option.some.injEq] at e1
  subst e1
  rw [h1, h2, e2, e3]
  simp [eq_comm]

/-- C45: a counter example, if one is given, has one value per input, and the designs differ on it. One is given whenever
two designs with inputs, equal interfaces and no violations are reported as not equivalent, unless the solver gives up. -/
theorem C45_counter_example (hs : Sound solve) (hp : spec.io.Proper) (hq : impl.io.Proper)
    {r : EqType × Stats} (h : check sort solve spec impl = some r) :
    (r.2.counterExample ≠ [] → r.1 = .no ∧ r.2.counterExample.length = spec.io.pis ∧
      spec.io.fn r.2.counterExample ≠ impl.io.fn r.2.counterExample) ∧
    ((∀ n f, solve n f ≠ none) → spec.hasDrvs = false → impl.hasDrvs = false → spec.io.pis = impl.io.pis →
      spec.io.pos = impl.io.pos → r.1 = .no →
      r.2.counterExample.length = spec.io.pis ∧ spec.io.fn r.2.counterExample ≠ impl.io.fn r.2.counterExample) := by
  unfold check at h
  have h0 := h
  have hr := (cases_of (sort := sort) hs hp hq (by unfold check; exact h)).2
  have key : r.2.counterExample = [] ∨ (r.1 = .no ∧ r.2.counterExample.length = spec.io.pis ∧
      spec.io.fn r.2.counterExample ≠ impl.io.fn r.2.counterExample) := by
    rcases hr with ⟨-, h2, -⟩ | ⟨-, -, -, -, ⟨h5, h6, h7⟩ | ⟨he, ts, ti, e1, e2, e3, e4, h5⟩⟩
    · exact .inl h2
    · exact .inr ⟨h5, h6, h7⟩
    · left
      split_ifs at h
      · simp at h; rw [← h]
      · simp at h; rw [← h]
      · split at h
        · simp at h; rw [← h]
        · split at h
          · simp at h; rw [← h]
          · split at h
            · simp at h; rw [← h]
            · simp at h
          · simp at h
            rw [← h] at h5
            simp only at h5
            split_ifs at h5
  refine ⟨fun hne => key.resolve_left hne, ?_⟩
  intro hc d1 d2 p1 p2 hno
  rw [d1, d2] at h
  simp only [Bool.false_eq_true, if_false] at h
  have hm : miter spec.io impl.io = some (spec.io.pis, fun xs => ((spec.io.fn xs).zip (impl.io.fn xs)).any (fun p => p.1 != p.2)) := by
    simp [miter, p1, p2]
  rw [hm] at h
  simp only at h
  split at h
  · rename_i e; exact absurd e (hc _ _)
  · split at h
    · simp only [Option.some.injEq] at h
      rw [← h] at hno
      simp only at hno
      split_ifs at hno
    · simp at h
  · rename_i cex e
    simp only [Option.some.injEq] at h
    rw [← h]
    obtain ⟨hx, hf⟩ := hs.sat _ _ _ e
    refine ⟨hx, (any_zip _ _ ?_).1 hf⟩
    rw [hp _ hx, hq _ (by rw [hx, p1]), p2]

/-- C45: the returned type is the one in the statistics. -/
theorem C45_stats (hs : Sound solve) (hp : spec.io.Proper) (hq : impl.io.Proper)
    {r : EqType × Stats} (h : check sort solve spec impl = some r) : r.1 = r.2.eq := (cases_of hs hp hq h).1

end

/-- A layout in the sense of C56: built by a valid history, all nodes in the layout, no cycles in the data flow. -/
structure Good (m : Dim) (tp : Topo) (cs : Scheme) (ops : List GateLevel.Op) : Prop where
  valid : Valid m init ops
  X : m.X < 2^31 - 1
  Y : m.Y < 2^31 - 1
  layerFree : LayerFree cs
  inBounds : ∀ t n, (run m init ops).tileNode t = some n → 2 ≤ n → InBounds m t
  notEmpty : Drv.layoutEmpty (run m init ops) = false
  acyclic : ∀ t, ¬ Relation.TransGen (fun a b => a ∈ (CritPath.ofState m tp cs (run m init ops)).inc b) t t
  outputs : ∀ o ∈ (run m init ops).outputs, o.d = false
  inputs : ∀ n ∈ (run m init ops).inputs, ((run m init ops).nodes n).children = []

/-- C45: for a network and a layout that obeys the design rules, the check terminates, and reports NO iff they are not
logically equivalent; for layouts that break a design rule, it reports NO. -/
theorem C45_layout_against_network {sort : List CritPath.Info → List CritPath.Info} (hsort : CritPath.Sorts sort)
    {solve : Solver} (hs : Sound solve) (hc : ∀ n f, solve n f ≠ none) (io io' : Io) (hp : io.Proper) (hq : io'.Proper)
    {m : Dim} {tp : Topo} {cs : Scheme} {ops : List GateLevel.Op} (hg : Good m tp cs ops) :
    ∃ r, check sort solve (.network io) (.layout io' m tp cs (run m init ops)) = some r ∧
      (r.1 = .no ↔ ¬ Drv.Clean m tp cs (run m init ops) ∨
        ¬ LogicallyEquivalent (.network io) (.layout io' m tp cs (run m init ops))) := by
  have hiff := Drv.C56_no_drvs_iff_clean m ops hg.valid tp hg.X hg.Y cs hg.layerFree hg.inBounds hg.notEmpty
  have hdrv : (Design.layout io' m tp cs (run m init ops)).hasDrvs = true ↔ ¬ Drv.Clean m tp cs (run m init ops) := by
    rw [← hiff]; simp [Design.hasDrvs]
  have hterm : ∃ r, check sort solve (.network io) (.layout io' m tp cs (run m init ops)) = some r := by
    unfold check
    by_cases hd : (Design.layout io' m tp cs (run m init ops)).hasDrvs = true
    · rw [if_neg (by simp [Design.hasDrvs]), if_pos hd]; simp
    · have hcl : Drv.drvs m tp cs (run m init ops) {} = 0 := by
        simpa [Design.hasDrvs] using hd
      obtain ⟨r, hr, -⟩ := Drv.C56_critical_path m ops hg.valid tp hg.X hg.Y cs hg.layerFree hg.inBounds hg.notEmpty hsort hcl
        hg.acyclic hg.outputs hg.inputs
      rw [if_neg (by simp [Design.hasDrvs]), if_neg hd]
      have ht : (Design.layout io' m tp cs (run m init ops)).throughput sort = some r.throughput := by
        simp [Design.throughput, hr]
      rw [ht]
      simp only [Design.throughput]
      split
      · simp
      · split <;> simp
  obtain ⟨r, hr⟩ := hterm
  refine ⟨r, hr, ?_⟩
  rw [C45_no_iff (spec := .network io) (impl := .layout io' m tp cs (run m init ops)) hs hp hq hc hr, hdrv]
  simp [Design.hasDrvs]

/-! ## Concrete cases, and disagreements -/

/-- All inputs of length `n`. -/
def inputsOf : Nat → List (List Bool)
  | 0 => [[]]
  | n + 1 => (inputsOf n).flatMap (fun xs => [false :: xs, true :: xs])

theorem mem_inputsOf : ∀ (n : Nat) (xs : List Bool), xs ∈ inputsOf n ↔ xs.length = n
  | 0, xs => by simp [inputsOf]
  | n + 1, [] => by simp [inputsOf]
  | n + 1, x :: xs => by
    simp only [inputsOf, List.mem_flatMap, mem_inputsOf n, List.length_cons, Nat.add_right_cancel_iff]
    constructor
    · rintro ⟨ys, h, h'⟩
      simp at h'
      rcases h' with ⟨-, rfl⟩ | ⟨-, rfl⟩ <;> exact h
    · intro h; exact ⟨xs, h, by cases x <;> simp⟩

/-- A complete solver. -/
def tryAll : Solver := fun n f => some ((inputsOf n).find? f)

theorem tryAll_sound : Sound tryAll := by
  refine ⟨?_, ?_⟩
  · intro n f h xs hx
    simp only [tryAll, Option.some.injEq, List.find?_eq_none] at h
    simpa using h xs ((mem_inputsOf n xs).2 hx)
  · intro n f x h
    simp only [tryAll, Option.some.injEq] at h
    exact ⟨(mem_inputsOf n x).1 (List.mem_of_find?_eq_some h), List.find?_some h⟩

/-- A conjunction, and a disjunction. -/
def andIo : Io := ⟨2, 1, fun xs => [xs.getD 0 false && xs.getD 1 false]⟩
def orIo : Io := ⟨2, 1, fun xs => [xs.getD 0 false || xs.getD 1 false]⟩

theorem andIo_proper : andIo.Proper := fun _ _ => rfl
theorem orIo_proper : orIo.Proper := fun _ _ => rfl

/-- A layout of the conjunction with throughput 1/2. -/
def andLayout : Design :=
  .layout andIo ⟨5, 1, 0⟩ .cart (twoddwaveClocking .cart .four) (run ⟨5, 1, 0⟩ init CritPath.unbalanced)

example : (check CritPath.bySize tryAll (.network andIo) (.network andIo)).map (·.1) = some .strong := by decide +kernel
example : (check CritPath.bySize tryAll (.network andIo) andLayout).map (·.1) = some .weak := by decide +kernel
example : check CritPath.bySize tryAll (.network orIo) andLayout = some (.no, { counterExample := [true, false] }) := by decide +kernel

/-- C45 differs from the documentation, which says STRONG is for layouts of throughput 1/1 only: two layouts of
throughput 1/2 are reported as strongly equivalent. -/
theorem C45_strong_with_throughput_two :
    (check CritPath.bySize tryAll andLayout andLayout).map (fun r => (r.1, r.2.tpSpec, r.2.tpImpl)) = some (.strong, 2, 2) := by
  decide +kernel

/-- C45 is false of the code if the solver gives up: designs that are logically equivalent are reported as not
equivalent. -/
theorem C45_resource_limit_reported_as_no :
    ∃ solve, Sound solve ∧ check CritPath.bySize solve (.network andIo) (.network andIo) = some (.no, {}) ∧
      LogicallyEquivalent (.network andIo) (.network andIo) :=
  ⟨fun _ _ => none, ⟨by simp, by simp⟩, by decide +kernel, rfl, rfl, fun _ _ => rfl⟩

/-- The hypotheses of `C45_layout_against_network` are met by a layout with two crossing wires. -/
example : Good ⟨2, 2, 1⟩ .cart (twoddwaveClocking .cart .four) Drv.crossing := by
  have hin : ∀ t n, (run ⟨2, 2, 1⟩ init Drv.crossing).tileNode t = some n → 2 ≤ n → InBounds ⟨2, 2, 1⟩ t := by
    intro t n h hn
    have w : WF (run ⟨2, 2, 1⟩ init Drv.crossing) := WF.init.run _ _ Drv.crossing_valid
    have e : (run ⟨2, 2, 1⟩ init Drv.crossing).size = 8 := by decide +kernel
    have h8 := w.lt t n h
    rw [e] at h8
    have h2 := (w.inv t n).1 h
    have hall : ∀ n < 8, 2 ≤ n → ((run ⟨2, 2, 1⟩ init Drv.crossing).nodeTile n).any (fun t => decide (InBounds ⟨2, 2, 1⟩ t)) = true := by decide +kernel
    have h3 := hall n h8 hn
    rw [h2] at h3
    simpa using h3
  have hlf : LayerFree (twoddwaveClocking .cart .four) := fun a b hx hy => by simp [Scheme.clock, twoddwaveClocking, byRow, hx, hy]
  exact ⟨Drv.crossing_valid, by decide, by decide, hlf, hin, by decide +kernel,
    CritPath.C46_linear_acyclic _ _ _ _ Drv.crossing_valid (by decide) (by decide) hin .four (.inl ⟨rfl, .inr (.inr rfl)⟩) hlf,
    by decide +kernel, by decide +kernel⟩

end Verif.Equiv
