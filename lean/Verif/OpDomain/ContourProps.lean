import Verif.OpDomain.CurveRun

/-! # Property C63: contour tracing -/
namespace Verif.OpDomain

open Verif.Iter

/-- The region of the sample is determined by any of its points. -/
theorem Traced.conn {rs : List Range} {op : PP → Bool} {dom : Dom} {p q : SP} (hp : OpPt rs op p) (h : Traced rs op dom p) (hc : Conn rs op p q) :
    Traced rs op dom q := fun b hb hq => h b hb (hc.trans hq)

theorem Traced.mono {rs : List Range} {op : PP → Bool} {dom dom' : Dom} {p : SP} (h : Traced rs op dom p)
    (hk : ∀ q, Knows rs op dom q → Knows rs op dom' q) : Traced rs op dom' p :=
  fun b hb hq => ⟨hk b (h b hb hq).1, fun q h1 h2 => hk q ((h b hb hq).2 q h1 h2)⟩

theorem BConn.border {rs : List Range} {op : PP → Bool} {p q : SP} (hp : Border rs op p) (h : BConn rs op p q) : Border rs op q := by
  cases h with
  | refl => exact hp
  | step _ _ hb => exact hb

section
variable {rs : List Range} {op : PP → Bool}

/-- One sample in three or more dimensions. -/
theorem surface_sample (hstep : ∀ r ∈ rs, margin ≤ r.step) (hne : rs ≠ []) {fuel : Nat} (hf : gridSize rs < fuel) {p : SP}
    (ps inf : List SP) (hp : Pts rs ps) (hk : p ∈ ps) (hi : inf.Nodup) (hg : ∀ q ∈ inf, InGrid rs q) :
    ∃ ps' inf', traceSample rs op (boundary rs op fuel) fuel (ps.map (ent rs op), inf) p = some (ps'.map (ent rs op), inf') ∧
      Pts rs ps' ∧ inf'.Nodup ∧ (∀ q ∈ inf', InGrid rs q) ∧ (∀ q ∈ ps, q ∈ ps') ∧ (∀ q ∈ inf, q ∈ inf') ∧
      (OpAt rs op p → p ∈ inf') ∧ (HoleFree rs op → (∀ q ∈ inf, OpAt rs op q ∧ Traced rs op (ps.map (ent rs op)) q) →
        ∀ q ∈ inf', OpAt rs op q ∧ Traced rs op (ps'.map (ent rs op)) q) := by
  have hpg := hp.2 p hk
  have hc := contains_pts (op := op) hstep hp hpg
  rw [if_pos hk] at hc
  unfold traceSample
  by_cases ho : OpAt rs op p
  · have ho' : op (toPP rs p) = true := ho
    rw [if_neg (by simp [hc, ho'])]
    by_cases hm : p ∈ inf
    · rw [if_pos hm]
      exact ⟨ps, inf, rfl, hp, hi, hg, fun q h => h, fun q h => h, fun _ => hm, fun _ h => h⟩
    · rw [if_neg hm]
      dsimp only
      obtain ⟨ps1, S, e1, p1, p2, p3, p4, p5⟩ := findContour_spec hstep ⟨hpg, ho⟩ hne ps hp hk
      rw [e1]
      dsimp only
      obtain ⟨ps2, C, e2, q1, q2, q3, q4⟩ := boundary_spec hstep p5 ps1 p1 p3 hf
      rw [e2]
      dsimp only
      obtain ⟨inf', e3, i1, i2, i3, i4, i5⟩ := infer_spec (op := op) ⟨hpg, ho⟩ (ps2.map (ent rs op)) C inf hi hg hf
      rw [e3]
      refine ⟨ps2, inf', rfl, q1, i1, i2, fun q h => q2 q (p2 q h), i3, fun _ => i4, fun hfree hold => ?_⟩
      have hC : ∀ b, Border rs op b → Conn rs op p b → b ∈ C := fun b hb hpb =>
        (q3 b).2 (hfree S b p5 hb ((p4.symm ⟨hpg, ho⟩).1.trans hpb))
      have hT : Traced rs op (ps2.map (ent rs op)) p := by
        intro b hb hpb
        have hbC := hC b hb hpb
        refine ⟨(knows_pts hstep q1 hb.1.1).2 (q4 b hbC).1, fun q h1 h2 => (knows_pts hstep q1 h1).2 ((q4 b hbC).2 q h1 h2)⟩
      intro q hq
      rcases i5 hC q hq with h | h
      · refine ⟨(hold q h).1, (hold q h).2.mono ?_⟩
        intro r hr
        obtain ⟨a, ha, e⟩ := List.mem_map.1 hr
        exact List.mem_map.2 ⟨a, q2 a (p2 a ha), e⟩
      · exact ⟨h.2, hT.conn ⟨hpg, ho⟩ h.1⟩
  · have ho' : op (toPP rs p) = false := by simpa [OpAt] using ho
    rw [if_pos (by rw [hc, ho'])]
    exact ⟨ps, inf, rfl, hp, hi, hg, fun q h => h, fun q h => h, fun h => absurd h ho, fun _ h => h⟩

/-- All samples in three or more dimensions. -/
theorem surface_samples (hstep : ∀ r ∈ rs, margin ≤ r.step) (hne : rs ≠ []) {fuel : Nat} (hf : gridSize rs < fuel) (l : List SP)
    (ps inf : List SP) (hp : Pts rs ps) (hk : ∀ p ∈ l, p ∈ ps) (hi : inf.Nodup) (hg : ∀ q ∈ inf, InGrid rs q) :
    ∃ ps' inf', l.foldlM (traceSample rs op (boundary rs op fuel) fuel) (ps.map (ent rs op), inf) = some (ps'.map (ent rs op), inf') ∧
      Pts rs ps' ∧ inf'.Nodup ∧ (∀ q ∈ inf', InGrid rs q) ∧ (∀ q ∈ ps, q ∈ ps') ∧ (∀ q ∈ inf, q ∈ inf') ∧
      (∀ p ∈ l, OpAt rs op p → p ∈ inf') ∧ (HoleFree rs op → (∀ q ∈ inf, OpAt rs op q ∧ Traced rs op (ps.map (ent rs op)) q) →
        ∀ q ∈ inf', OpAt rs op q ∧ Traced rs op (ps'.map (ent rs op)) q) := by
  induction l generalizing ps inf with
  | nil => exact ⟨ps, inf, rfl, hp, hi, hg, fun q h => h, fun q h => h, by simp, fun _ h => h⟩
  | cons p l ih =>
    obtain ⟨ps1, inf1, e1, a1, a2, a3, a4, a5, a6, a7⟩ := surface_sample (op := op) hstep hne hf ps inf hp (hk p (by simp)) hi hg
    obtain ⟨ps2, inf2, e2, b1, b2, b3, b4, b5, b6, b7⟩ := ih ps1 inf1 a1 (fun q hq => a4 q (hk q (by simp [hq]))) a2 a3
    refine ⟨ps2, inf2, ?_, b1, b2, b3, fun q h => b4 q (a4 q h), fun q h => b5 q (a5 q h), fun q hq ho => ?_, fun h1 h2 => b7 h1 (a7 h1 h2)⟩
    · rw [List.foldlM_cons, e1]
      exact e2
    · rcases List.mem_cons.1 hq with rfl | hq
      · exact b5 q (a6 ho)
      · exact b6 q hq ho

/-- One sample in two dimensions. -/
theorem curve_sample (hstep : ∀ r ∈ rs, margin ≤ r.step) (hl : rs.length = 2) {fuel : Nat} (hf : gridSize rs < fuel) {p : SP}
    (ps inf : List SP) (hp : Pts rs ps) (hk : p ∈ ps) (hi : inf.Nodup) (hg : ∀ q ∈ inf, InGrid rs q) {st}
    (e : traceSample rs op (trace rs op fuel) fuel (ps.map (ent rs op), inf) p = some st) :
    ∃ ps' inf', st = (ps'.map (ent rs op), inf') ∧ Pts rs ps' ∧ inf'.Nodup ∧ (∀ q ∈ inf', InGrid rs q) ∧ (∀ q ∈ ps, q ∈ ps') ∧
      (∀ q ∈ inf, q ∈ inf') ∧ (OpAt rs op p → p ∈ inf') := by
  have hpg := hp.2 p hk
  have hc := contains_pts (op := op) hstep hp hpg
  rw [if_pos hk] at hc
  unfold traceSample at e
  by_cases ho : OpAt rs op p
  · have ho' : op (toPP rs p) = true := ho
    rw [if_neg (by simp [hc, ho'])] at e
    by_cases hm : p ∈ inf
    · rw [if_pos hm] at e
      simp only [Option.some.injEq] at e
      exact ⟨ps, inf, e.symm, hp, hi, hg, fun q h => h, fun q h => h, fun _ => hm⟩
    · rw [if_neg hm] at e
      dsimp only at e
      obtain ⟨ps1, S, e1, p1, p2, p3, p4, p5⟩ := findContour_spec hstep ⟨hpg, ho⟩ (by rintro rfl; simp at hl) ps hp hk
      rw [e1] at e
      dsimp only at e
      cases ht : trace rs op fuel (ps1.map (ent rs op)) S with
      | none => rw [ht] at e; simp at e
      | some r =>
        rw [ht] at e
        obtain ⟨ps2, q1, q2, q3, -, -⟩ := trace_sound hl hstep p5.1 ps1 p1 p3 ht
        obtain ⟨d, C⟩ := r
        dsimp only at e q1
        subst q1
        obtain ⟨inf', e3, i1, i2, i3, i4, -⟩ := infer_spec (op := op) ⟨hpg, ho⟩ (ps2.map (ent rs op)) C inf hi hg hf
        rw [e3] at e
        simp only [Option.map_some, Option.some.injEq] at e
        exact ⟨ps2, inf', e.symm, q2, i1, i2, fun q h => q3 q (p2 q h), i3, fun _ => i4⟩
  · have ho' : op (toPP rs p) = false := by simpa [OpAt] using ho
    rw [if_pos (by rw [hc, ho'])] at e
    simp only [Option.some.injEq] at e
    exact ⟨ps, inf, e.symm, hp, hi, hg, fun q h => h, fun q h => h, fun h => absurd h ho⟩

theorem curve_samples (hstep : ∀ r ∈ rs, margin ≤ r.step) (hl : rs.length = 2) {fuel : Nat} (hf : gridSize rs < fuel) (l : List SP)
    (ps inf : List SP) (hp : Pts rs ps) (hk : ∀ p ∈ l, p ∈ ps) (hi : inf.Nodup) (hg : ∀ q ∈ inf, InGrid rs q) {st}
    (e : l.foldlM (traceSample rs op (trace rs op fuel) fuel) (ps.map (ent rs op), inf) = some st) :
    ∃ ps' inf', st = (ps'.map (ent rs op), inf') ∧ Pts rs ps' ∧ inf'.Nodup ∧ (∀ q ∈ inf', InGrid rs q) ∧ (∀ q ∈ ps, q ∈ ps') ∧
      (∀ q ∈ inf, q ∈ inf') ∧ ∀ p ∈ l, OpAt rs op p → p ∈ inf' := by
  induction l generalizing ps inf with
  | nil =>
    simp only [List.foldlM_nil, Option.pure_def, Option.some.injEq] at e
    exact ⟨ps, inf, e.symm, hp, hi, hg, fun q h => h, fun q h => h, by simp⟩
  | cons p l ih =>
    rw [List.foldlM_cons] at e
    obtain ⟨st1, e1, e2⟩ := Option.bind_eq_some_iff.1 e
    obtain ⟨ps1, inf1, rfl, a1, a2, a3, a4, a5, a6⟩ := curve_sample hstep hl hf ps inf hp (hk p (by simp)) hi hg e1
    obtain ⟨ps2, inf2, rfl, b1, b2, b3, b4, b5, b6⟩ := ih ps1 inf1 a1 (fun q hq => a4 q (hk q (by simp [hq]))) a2 a3 e2
    refine ⟨ps2, inf2, rfl, b1, b2, b3, fun q h => b4 q (a4 q h), fun q h => b5 q (a5 q h), fun q hq ho => ?_⟩
    rcases List.mem_cons.1 hq with rfl | hq
    · exact b5 q (a6 ho)
    · exact b6 q hq ho

/-- The domain after the simulation of the samples. -/
theorem samples_pts (h : Sweep rs) {T n : Nat} {ps : List SP} (hs : Samples rs n ps) {dom : Dom} {evals : Nat}
    (hd : Simulated rs op T ps dom evals) : ∃ qs, dom = qs.map (ent rs op) ∧ Pts rs qs ∧ ∀ p, p ∈ qs ↔ p ∈ ps := by
  obtain ⟨hn, -, hg⟩ := hs
  have hg' : ∀ p ∈ ps, InGrid rs p := fun p hp => mem_indices.1 (hg p hp)
  obtain ⟨hperm, -⟩ := simulated_spec h.step hg' hn hd
  have hid : ∀ p ∈ ps, toSP rs (ent rs op p).1 = p := fun p hp => toSP_toPP h.step (hg' p hp)
  have hq : (dom.map (fun e => toSP rs e.1)).Perm ps := by
    refine (hperm.map _).trans ?_
    rw [List.map_map]
    have : ps.map ((fun e : PP × Bool => toSP rs e.1) ∘ ent rs op) = ps.map id := List.map_congr_left (fun p hp => hid p hp)
    rw [this, List.map_id]
  refine ⟨dom.map (fun e => toSP rs e.1), ?_, ⟨hq.nodup_iff.2 hn, fun p hp => hg' p (hq.mem_iff.1 hp)⟩, fun p => hq.mem_iff⟩
  rw [List.map_map]
  have : dom.map (ent rs op ∘ fun e => toSP rs e.1) = dom.map id := by
    refine List.map_congr_left (fun e he => ?_)
    obtain ⟨p, hp, rfl⟩ := List.mem_map.1 (hperm.mem_iff.1 he)
    simp [hid p hp]
  rw [this, List.map_id]

theorem Conn.last {p q : SP} (hp : OpPt rs op p) (h : Conn rs op p q) (hne : p ≠ q) : ∃ r, OpPt rs op r ∧ Near q r := by
  cases h with
  | refl => exact absurd rfl hne
  | step h' hn _ => exact ⟨_, (h'.symm hp).2, hn.symm⟩

/-- With enough rounds, every sample next to an operational point is traced. -/
theorem curve_sample_ends (hstep : ∀ r ∈ rs, margin ≤ r.step) (hl : rs.length = 2) : ∃ N, ∀ fuel, N < fuel → ∀ p : SP,
    (OpAt rs op p → ∃ q, OpPt rs op q ∧ Near p q) → ∀ ps inf : List SP, Pts rs ps → p ∈ ps → inf.Nodup → (∀ q ∈ inf, InGrid rs q) →
    ∃ st, traceSample rs op (trace rs op fuel) fuel (ps.map (ent rs op), inf) p = some st := by
  obtain ⟨N, hN⟩ := trace_ends (op := op) hl hstep
  refine ⟨max N (gridSize rs), fun fuel hf p hnb ps inf hp hk hi hg => ?_⟩
  have hpg := hp.2 p hk
  unfold traceSample
  split_ifs with h1 h2
  · exact ⟨_, rfl⟩
  · exact ⟨_, rfl⟩
  · have ho : OpAt rs op p := by
      have hc := contains_pts (op := op) hstep hp hpg
      rw [if_pos hk] at hc
      simp only [hc, Option.some.injEq, Bool.not_eq_false] at h1
      exact h1
    dsimp only
    obtain ⟨ps1, S, e1, p1, p2, p3, p4, p5⟩ := findContour_spec hstep ⟨hpg, ho⟩ (by rintro rfl; simp at hl) ps hp hk
    rw [e1]
    dsimp only
    have hS : ∃ q, OpPt rs op q ∧ Near S q := by
      by_cases hne : p = S
      · exact hne ▸ hnb ho
      · exact p4.last ⟨hpg, ho⟩ hne
    obtain ⟨⟨d, C⟩, ht⟩ := hN S p5.1 hS ps1 p1 fuel (by omega)
    rw [ht]
    dsimp only
    obtain ⟨inf', e3, -⟩ := infer_spec (op := op) ⟨hpg, ho⟩ d C inf hi hg (fuel := fuel) (by omega)
    rw [e3]
    exact ⟨_, rfl⟩

end

/-- Contour tracing reports nothing but the truth: the domain holds points of the grid, each once and with its status, among them all samples;
and the inferred points lie in the grid and include every operational sample. -/
theorem C63_sound {rs : List Range} {op : PP → Bool} (h : Sweep rs) (hne : rs ≠ []) {T n : Nat} {ps : List SP} (hs : Samples rs n ps)
    {dom : Dom} {evals : Nat} (hd : Simulated rs op T ps dom evals) {fuel : Nat} (hf : gridSize rs < fuel) {dom' : Dom} {inf : List SP}
    (e : contourTracing rs op fuel dom ps = some (dom', inf)) :
    Sound rs op dom' ∧ (∀ p ∈ ps, Knows rs op dom' p) ∧ (∀ q ∈ inf, InGrid rs q) ∧ ∀ p ∈ ps, OpAt rs op p → p ∈ inf := by
  obtain ⟨qs, rfl, hq, hmem⟩ := samples_pts h hs hd
  have hfin : ∀ ps' inf', Pts rs ps' → (∀ q ∈ qs, q ∈ ps') → (∀ q ∈ inf', InGrid rs q) → (∀ p ∈ ps, OpAt rs op p → p ∈ inf') →
      (ps'.map (ent rs op), inf') = (dom', inf) →
      Sound rs op dom' ∧ (∀ p ∈ ps, Knows rs op dom' p) ∧ (∀ q ∈ inf, InGrid rs q) ∧ ∀ p ∈ ps, OpAt rs op p → p ∈ inf := by
    intro ps' inf' h1 h2 h3 h4 e
    simp only [Prod.mk.injEq] at e
    obtain ⟨rfl, rfl⟩ := e
    exact ⟨⟨ps', h1.1, h1.2, rfl⟩, fun p hp => List.mem_map.2 ⟨p, h2 p ((hmem p).2 hp), rfl⟩, h3, h4⟩
  unfold contourTracing at e
  by_cases hl : rs.length = 2
  · rw [if_pos hl] at e
    obtain ⟨ps', inf', e', a1, a2, a3, a4, a5, a6⟩ := curve_samples h.step hl hf ps qs [] hq (fun p hp => (hmem p).2 hp) (by simp) (by simp) e
    exact hfin ps' inf' a1 a4 a3 a6 e'.symm
  · rw [if_neg hl] at e
    obtain ⟨ps', inf', e', a1, a2, a3, a4, a5, a6, -⟩ :=
      surface_samples (op := op) h.step hne hf ps qs [] hq (fun p hp => (hmem p).2 hp) (by simp) (by simp)
    exact hfin ps' inf' a1 a4 a3 a6 (Option.some.inj (e'.symm.trans e))

/-- In three or more dimensions, contour tracing always ends, and if no operational region has a hole, it does what its documentation promises:
it finds the border of every operational region that contains a sample, with all points next to the border, and every inferred point is
operational. -/
theorem C63_surface {rs : List Range} {op : PP → Bool} (h : Sweep rs) (hl : 3 ≤ rs.length) (hfree : HoleFree rs op) {T n : Nat} {ps : List SP}
    (hs : Samples rs n ps) {dom : Dom} {evals : Nat} (hd : Simulated rs op T ps dom evals) {fuel : Nat} (hf : gridSize rs < fuel) :
    ∃ dom' inf, contourTracing rs op fuel dom ps = some (dom', inf) ∧ (∀ p ∈ ps, OpAt rs op p → Traced rs op dom' p) ∧
      (∀ q ∈ inf, OpPt rs op q) ∧ ∀ p ∈ ps, OpAt rs op p → p ∈ inf := by
  obtain ⟨qs, rfl, hq, hmem⟩ := samples_pts h hs hd
  have hne : rs ≠ [] := by rintro rfl; simp at hl
  obtain ⟨ps', inf', e', a1, a2, a3, a4, a5, b2, a6⟩ :=
    surface_samples (op := op) h.step hne hf ps qs [] hq (fun p hp => (hmem p).2 hp) (by simp) (by simp)
  have b1 := a6 hfree (by simp)
  refine ⟨_, inf', by unfold contourTracing; rw [if_neg (by omega)]; exact e', fun p hp ho => (b1 p (b2 p hp ho)).2,
    fun q hq => ⟨a3 q hq, (b1 q hq).1⟩, b2⟩

/-- In two dimensions, contour tracing ends if every operational sample has an operational neighbour. -/
theorem C63_curve_ends {rs : List Range} {op : PP → Bool} (h : Sweep rs) (hl : rs.length = 2) {T n : Nat} {ps : List SP} (hs : Samples rs n ps)
    {dom : Dom} {evals : Nat} (hd : Simulated rs op T ps dom evals) (hnb : ∀ p ∈ ps, OpAt rs op p → ∃ q, OpPt rs op q ∧ Near p q) :
    ∃ N, ∀ fuel, N < fuel → ∃ r, contourTracing rs op fuel dom ps = some r := by
  obtain ⟨qs, rfl, hq, hmem⟩ := samples_pts h hs hd
  obtain ⟨N, hN⟩ := curve_sample_ends (op := op) h.step hl
  refine ⟨max N (gridSize rs), fun fuel hf => ?_⟩
  unfold contourTracing
  rw [if_pos hl]
  have key : ∀ (l : List SP), (∀ p ∈ l, p ∈ ps) → ∀ qs inf : List SP, Pts rs qs → (∀ p ∈ l, p ∈ qs) → inf.Nodup → (∀ q ∈ inf, InGrid rs q) →
      ∃ st, l.foldlM (traceSample rs op (trace rs op fuel) fuel) (qs.map (ent rs op), inf) = some st := by
    intro l
    induction l with
    | nil => intro _ qs inf _ _ _ _; exact ⟨_, rfl⟩
    | cons p l ih =>
      intro hsub qs inf hq hk hi hg
      obtain ⟨st, e⟩ := hN fuel (by omega) p (hnb p (hsub p (by simp))) qs inf hq (hk p (by simp)) hi hg
      obtain ⟨ps1, inf1, rfl, a1, a2, a3, a4, a5, a6⟩ := curve_sample h.step hl (by omega) qs inf hq (hk p (by simp)) hi hg e
      rw [List.foldlM_cons, e]
      exact ih (fun p hp => hsub p (by simp [hp])) ps1 inf1 a1 (fun q hq => a4 q (hk q (by simp [hq]))) a2 a3
  exact key ps (fun p hp => hp) qs [] hq (fun p hp => (hmem p).2 hp) (by simp) (by simp)

/-- Contour tracing in two dimensions never ends if the first operational sample is an isolated operational point. -/
theorem C63_curve_hangs {rs : List Range} {op : PP → Bool} (h : Sweep rs) (hl : rs.length = 2) {T n : Nat} {pre post : List SP} {p : SP}
    (hs : Samples rs n (pre ++ p :: post)) {dom : Dom} {evals : Nat} (hd : Simulated rs op T (pre ++ p :: post) dom evals)
    (hpre : ∀ q ∈ pre, ¬ OpAt rs op q) (hop : OpAt rs op p) (hno : ∀ q, OpPt rs op q → ¬ Near p q) (hnb : ∃ q, InGrid rs q ∧ Near p q)
    (fuel : Nat) : contourTracing rs op fuel dom (pre ++ p :: post) = none := by
  obtain ⟨qs, rfl, hq, hmem⟩ := samples_pts h hs hd
  unfold contourTracing
  rw [if_pos hl, List.foldlM_append]
  have hp : p ∈ qs := (hmem p).2 (by simp)
  have key : ∀ (l : List SP), (∀ q ∈ l, q ∈ pre) →
      l.foldlM (traceSample rs op (trace rs op fuel) fuel) (qs.map (ent rs op), []) = some (qs.map (ent rs op), []) := by
    intro l
    induction l with
    | nil => intro _; rfl
    | cons q l ih =>
      intro hsub
      have hqq : q ∈ qs := (hmem q).2 (by simp [hsub q (by simp)])
      have hc := contains_pts (op := op) h.step hq (hq.2 q hqq)
      have ho : op (toPP rs q) = false := by simpa [OpAt] using hpre q (hsub q (by simp))
      rw [if_pos hqq, ho] at hc
      have e : traceSample rs op (trace rs op fuel) fuel (qs.map (ent rs op), []) q = some (qs.map (ent rs op), []) := by
        unfold traceSample
        rw [if_pos hc]
      rw [List.foldlM_cons, e]
      exact ih (fun q hq => hsub q (by simp [hq]))
  rw [key pre (fun q hq => hq)]
  have hop' : op (toPP rs p) = true := hop
  have hc := contains_pts (op := op) h.step hq (hq.2 p hp)
  rw [if_pos hp, hop'] at hc
  have e : traceSample rs op (trace rs op fuel) fuel (qs.map (ent rs op), []) p = none := by
    unfold traceSample
    rw [if_neg (by simp [hc]), if_neg (by simp)]
    dsimp only
    obtain ⟨ps1, S, e1, p1, p2, p3, p4, p5⟩ := findContour_spec h.step ⟨hq.2 p hp, hop⟩ (by rintro rfl; simp at hl) qs hq hp
    rw [e1]
    dsimp only
    have hS : p = S := by
      by_contra hne
      clear e1 p5 p3
      induction p4 with
      | refl => exact hne rfl
      | @step q r hc' hn ho ih =>
        by_cases hpq : p = q
        · exact hno r ho (hpq ▸ hn)
        · exact ih hpq
    subst hS
    rw [trace_hangs hl h.step ⟨hq.2 p hp, hop⟩ hno hnb ps1 p1 fuel]
  show (List.foldlM _ _ (p :: post)) = none
  rw [List.foldlM_cons, e]
  rfl

/-! ## The left border -/

theorem nextClockwise_split {l pre post : List SP} {b c : SP} (hn : l.Nodup) (e : l = pre ++ b :: c :: post) :
    nextClockwise b l.length l = some c := by
  subst e
  rw [List.nodup_append, List.nodup_cons] at hn
  obtain ⟨-, ⟨h2, -⟩, h3⟩ := hn
  exact nextClockwise_mid b pre (c :: post) (fun h => h3 b h b (by simp) rfl) h2 (by simp) _ (by simp)

/-- A contour that starts at the left border, with the points to its right and below it operational, consists of these three points only,
whatever the operational region looks like: nothing else is simulated. -/
theorem C63_left_border {rs : List Range} {op : PP → Bool} (h : Sweep rs) (hl : rs.length = 2) {y : Nat} (h0 : OpPt rs op [0, y])
    (h1 : OpPt rs op [1, y]) (h2 : OpPt rs op [0, y + 1]) {dom : Dom} (hd : Sound rs op dom) (hk : Knows rs op dom [0, y]) (fuel : Nat) :
    ∃ dom', trace rs op (fuel + 3) dom [0, y] = some (dom', [[0, y], [1, y], [0, y + 1]]) ∧
      ∀ q, InGrid rs q → (Knows rs op dom' q ↔ Knows rs op dom q ∨ q = [1, y] ∨ q = [0, y + 1]) := by
  obtain ⟨ps, hn, hg, e⟩ := hd
  have hp : Pts rs ps := ⟨hn, hg⟩
  have hd : dom = ps.map (ent rs op) := e
  subst hd
  obtain ⟨w0, w1⟩ := (inGrid2_iff hl).1 h1.1
  obtain ⟨w2, w3⟩ := (inGrid2_iff hl).1 h2.1
  have n1 : nextPoint rs [1, y] [0, y] = some [0, y + 1] := by
    unfold nextPoint
    refine nextClockwise_split (moore2d_nodup rs _) (pre := (if 1 + 1 < (sizes rs).getD 0 0 then [[1 + 1, y]] else []) ++
        (if 1 + 1 < (sizes rs).getD 0 0 ∧ 0 < y then [[1 + 1, y - 1]] else []) ++ (if 0 < y then [[1, y - 1]] else []) ++
        (if 0 < 1 ∧ 0 < y then [[1 - 1, y - 1]] else [])) (post := (if y + 1 < (sizes rs).getD 1 0 then [[1, y + 1]] else []) ++
        (if 1 + 1 < (sizes rs).getD 0 0 ∧ y + 1 < (sizes rs).getD 1 0 then [[1 + 1, y + 1]] else [])) ?_
    unfold moore2d
    simp only [List.getD_cons_zero, List.getD_cons_succ]
    rw [moore2_eq, if_pos (show 0 < 1 by omega), if_pos (show 0 < 1 ∧ y + 1 < (sizes rs).getD 1 0 from ⟨by omega, w3⟩)]
    simp only [List.append_assoc, List.singleton_append, Nat.sub_self]
    rfl
  have n2 : nextPoint rs [0, y + 1] [1, y] = some [0, y] := by
    unfold nextPoint
    refine nextClockwise_split (moore2d_nodup rs _) (pre := ?_) (post := ?_) ?_
    rotate_left 2
    · unfold moore2d
      simp only [List.getD_cons_zero, List.getD_cons_succ]
      rw [moore2_eq, if_pos (show 0 + 1 < (sizes rs).getD 0 0 ∧ 0 < y + 1 from ⟨w0, by omega⟩), if_pos (show 0 < y + 1 by omega)]
      simp only [List.append_assoc, List.singleton_append, Nat.add_sub_cancel, Nat.zero_add]
      rfl
  have n0 : traceInit rs [0, y] = some ([0, y], [1, y]) := by
    unfold traceInit
    simp only [List.getD_cons_zero, List.getD_cons_succ, if_true]
    have : ∃ t, moore2d rs [0, y] = [1, y] :: t := by
      unfold moore2d
      simp only [List.getD_cons_zero, List.getD_cons_succ]
      rw [moore2_eq, if_pos (show 0 + 1 < (sizes rs).getD 0 0 from w0)]
      simp only [List.append_assoc, List.singleton_append, Nat.zero_add]
      exact ⟨_, rfl⟩
    obtain ⟨t, e⟩ := this
    rw [e]
  have o1 : op (toPP rs [1, y]) = true := h1.2
  have o2 : op (toPP rs [0, y + 1]) = true := h2.2
  have q1 := query_pts (op := op) h.step hp h1.1
  have q2 := query_pts (op := op) h.step (hp.ins h1.1) h2.1
  rw [o1] at q1
  rw [o2] at q2
  refine ⟨(ins (ins ps [1, y]) [0, y + 1]).map (ent rs op), ?_, fun q hq => ?_⟩
  · unfold trace
    rw [n0]
    dsimp only
    rw [traceLoop_next [0, y] (fuel + 2) _ _ _ _ _ (by simp) q1 n1, if_pos rfl, if_pos rfl, if_pos rfl,
      traceLoop_next [0, y] (fuel + 1) _ _ _ _ _ (by simp) q2 n2, if_pos rfl, if_pos rfl, if_pos rfl]
    simp [traceLoop]
  · rw [knows_pts h.step ((hp.ins h1.1).ins h2.1) hq, knows_pts h.step hp hq, mem_ins, mem_ins, or_assoc]

/-! ## Witnesses -/

def ctRs : List Range := [⟨0, 4, 1⟩, ⟨0, 4, 1⟩]

theorem ctSweep : Sweep ctRs := ⟨by unfold ctRs; decide +kernel, by unfold ctRs; decide +kernel⟩

/-- The first three and the last column. -/
def ctOp : PP → Bool := fun v => decide (v.getD 0 0 ≤ 2) || decide (v.getD 0 0 = 4)

def ctSamples : List SP := [[2, 1], [4, 1]]

theorem ctSampled : Samples ctRs 2 ctSamples := ⟨by decide +kernel, by decide +kernel, by decide +kernel⟩

def ctDom : Dom := [([2, 1], true), ([4, 1], true)]

set_option synthInstance.maxSize 1000 in
theorem ctSimulated : Simulated ctRs ctOp 1 ctSamples ctDom 2 := by
  have h : (simRun ctRs ctOp (Sim.start 1 [] 0 ctSamples) [0, 0, 0, 0]).map (fun s => (s.dom, s.evals, s.thr)) =
      some (ctDom, 2, [([], none)]) := by decide +kernel
  obtain ⟨s, e, h⟩ := Option.map_eq_some_iff.1 h
  simp only [Prod.mk.injEq] at h
  exact ⟨_, s, e, by unfold Sim.Joined; rw [h.2.2]; simp, h.1, h.2.1⟩

/-- `operational_domain_contour_tracing` is documented to determine the contours of all operational regions that contain a sample. It does not if
a region touches the lower bound of the first parameter: neither the contour of that region nor that of another sampled region is
found, and non-operational points are inferred to be operational. -/
theorem C63_false_contours : ∃ dom' inf, contourTracing ctRs ctOp 100 ctDom ctSamples = some (dom', inf) ∧
    (∀ p ∈ ctSamples, OpPt ctRs ctOp p ∧ ¬ Traced ctRs ctOp dom' p) ∧ ∃ q ∈ inf, InGrid ctRs q ∧ ¬ OpAt ctRs ctOp q := by
  have e : (contourTracing ctRs ctOp 100 ctDom ctSamples).map (fun r => (r.1, decide ([3, 1] ∈ r.2))) =
      some (ctDom ++ [([1, 1], true), ([0, 1], true), ([0, 2], true)], true) := by decide +kernel
  obtain ⟨⟨dom', inf⟩, e, h⟩ := Option.map_eq_some_iff.1 e
  simp only [Prod.mk.injEq, decide_eq_true_eq] at h
  obtain ⟨rfl, h2⟩ := h
  have g : ∀ p, p ∈ cartesianCombinations (indices ctRs) → InGrid ctRs p := fun p => mem_indices.1
  have op : ∀ p, p ∈ ctSamples → OpPt ctRs ctOp p := fun p hp =>
    ⟨g p (by revert p; decide +kernel), by show ctOp (toPP ctRs p) = true; revert p; decide +kernel⟩
  refine ⟨_, inf, e, fun p hp => ⟨op p hp, fun ht => ?_⟩, [3, 1], h2, g _ (by decide +kernel), by show ¬ ctOp (toPP ctRs [3, 1]) = true; decide +kernel⟩
  have o1 := op p hp
  simp only [ctSamples, List.mem_cons, List.not_mem_nil, or_false] at hp
  rcases hp with rfl | rfl
  · have ho : OpPt ctRs ctOp [2, 0] := ⟨g _ (by decide +kernel), by show ctOp (toPP ctRs [2, 0]) = true; decide +kernel⟩
    have := (ht [2, 0] ⟨ho, Or.inl ⟨1, 0, rfl, Or.inl rfl⟩⟩ (Conn.step Conn.refl (near2.2 (by omega)) ho)).1
    exact absurd this (by unfold Knows; decide +kernel)
  · have hn : numIndices ⟨0, 4, 1⟩ = 5 := by decide +kernel
    have := (ht [4, 1] ⟨o1, Or.inl ⟨0, 4, rfl, Or.inr ⟨_, rfl, by rw [hn]⟩⟩⟩ Conn.refl).2 [4, 0] (g _ (by decide +kernel)) (near2.2 (by omega))
    exact absurd this (by unfold Knows; decide +kernel)

/-- The operational points of the isolated case: a single one. -/
def isoOp : PP → Bool := fun v => decide (v.getD 0 0 = 2) && decide (v.getD 1 0 = 2)

set_option synthInstance.maxSize 1000 in
theorem isoSimulated : Simulated ctRs isoOp 1 [[2, 2]] [([2, 2], true)] 1 := by
  have h : (simRun ctRs isoOp (Sim.start 1 [] 0 [[2, 2]]) [0, 0]).map (fun s => (s.dom, s.evals, s.thr)) =
      some ([([2, 2], true)], 1, [([], none)]) := by decide +kernel
  obtain ⟨s, e, h⟩ := Option.map_eq_some_iff.1 h
  simp only [Prod.mk.injEq] at h
  exact ⟨_, s, e, by unfold Sim.Joined; rw [h.2.2]; simp, h.1, h.2.1⟩

/-- Contour tracing does not end if the only sample is an isolated operational point. -/
theorem C63_false_isolated : ∀ fuel, contourTracing ctRs isoOp fuel [([2, 2], true)] [[2, 2]] = none := by
  intro fuel
  refine C63_curve_hangs (n := 1) (pre := []) (post := []) ctSweep rfl ⟨by decide +kernel, by decide +kernel, by decide +kernel⟩ isoSimulated
    (by simp) (by show isoOp (toPP ctRs [2, 2]) = true; decide +kernel) ?_ ⟨[1, 1], mem_indices.1 (by decide +kernel), near2.2 (by omega)⟩ fuel
  intro q hq hn
  have hall : ∀ q ∈ cartesianCombinations (indices ctRs), isoOp (toPP ctRs q) = true → q = [2, 2] := by decide +kernel
  have := hall q (mem_indices.2 hq.1) hq.2
  exact hn.1 this.symm

/-- In the sweep of `C63_false_contours`, contour tracing ends. -/
example : ∃ N, ∀ fuel, N < fuel → ∃ r, contourTracing ctRs ctOp fuel ctDom ctSamples = some r := by
  refine C63_curve_ends ctSweep rfl ctSampled ctSimulated ?_
  intro p hp _
  simp only [ctSamples, List.mem_cons, List.not_mem_nil, or_false] at hp
  rcases hp with rfl | rfl
  · exact ⟨[2, 0], ⟨mem_indices.1 (by decide +kernel), by show ctOp (toPP ctRs [2, 0]) = true; decide +kernel⟩, near2.2 (by omega)⟩
  · exact ⟨[4, 0], ⟨mem_indices.1 (by decide +kernel), by show ctOp (toPP ctRs [4, 0]) = true; decide +kernel⟩, near2.2 (by omega)⟩

example : ∃ dom', trace ctRs ctOp (0 + 3) [([0, 1], true)] [0, 1] = some (dom', [[0, 1], [1, 1], [0, 2]]) ∧
    ∀ q, InGrid ctRs q → (Knows ctRs ctOp dom' q ↔ Knows ctRs ctOp [([0, 1], true)] q ∨ q = [1, 1] ∨ q = [0, 2]) := by
  have g : ∀ p, p ∈ cartesianCombinations (indices ctRs) → ctOp (toPP ctRs p) = true → OpPt ctRs ctOp p := fun p h1 h2 => ⟨mem_indices.1 h1, h2⟩
  exact C63_left_border ctSweep rfl (g _ (by decide +kernel) (by decide +kernel)) (g _ (by decide +kernel) (by decide +kernel))
    (g _ (by decide +kernel) (by decide +kernel)) ⟨[[0, 1]], by simp, by simpa using mem_indices.1 (by decide +kernel), by decide +kernel⟩
    (by unfold Knows; decide +kernel) 0

/-! ## A region without holes in three dimensions -/

def boxRs : List Range := [⟨0, 4, 1⟩, ⟨0, 2, 1⟩, ⟨0, 2, 1⟩]

/-- A box at the lower bound of the first parameter. -/
def boxOp : PP → Bool := fun v => decide (v.getD 0 0 ≤ 2)

theorem BConn.trans {rs : List Range} {op : PP → Bool} {p q r : SP} (h1 : BConn rs op p q) (h2 : BConn rs op q r) : BConn rs op p r := by
  induction h2 with
  | refl => exact h1
  | step _ hn ho ih => exact BConn.step ih hn ho

theorem BConn.symm {rs : List Range} {op : PP → Bool} {p q : SP} (hp : Border rs op p) (h : BConn rs op p q) : BConn rs op q p := by
  have : BConn rs op q p ∧ Border rs op q := by
    induction h with
    | refl => exact ⟨BConn.refl, hp⟩
    | step _ hn ho ih => exact ⟨(BConn.step BConn.refl hn.symm ih.2).trans ih.1, ho⟩
  exact this.1

/-- A point of the list, each of which but the first is next to an earlier one, is connected with the first. -/
theorem bconn_list {rs : List Range} {op : PP → Bool} (l : List SP) (hb : ∀ p ∈ l, Border rs op p)
    (hn : ∀ i (_ : i < l.length), 0 < i → ∃ j, ∃ (_ : j < i), Near l[j] l[i]) (i : Nat) (hi : i < l.length) :
    BConn rs op (l[0]'(by omega)) l[i] := by
  induction i using Nat.strongRecOn with
  | _ i ih =>
    rcases Nat.eq_zero_or_pos i with h | h
    · subst h; exact BConn.refl
    · obtain ⟨j, hj, hnear⟩ := hn i hi h
      exact BConn.step (ih j hj (by omega)) hnear (hb _ (List.getElem_mem hi))

instance (p q : SP) : Decidable (Near p q) := by unfold Near; infer_instance

/-- The points of the box other than its center. -/
def boxBorder : List SP := (cartesianCombinations (indices boxRs)).filter (fun p => decide (p.getD 0 0 ≤ 2) && decide (p ≠ [1, 1, 1]))

theorem boxHoleFree : HoleFree boxRs boxOp := by
  have hn : numIndices ⟨0, 2, 1⟩ = 3 := by decide +kernel
  have hedge : ∀ p ∈ boxBorder, (p[0]? = some 0 ∨ p[1]? = some 0 ∨ p[2]? = some 0) ∨ p[1]? = some 2 ∨ p[2]? = some 2 ∨ p[0]? = some 2 := by
    decide +kernel
  have hstep : ∀ p ∈ boxBorder, p[0]? = some 2 → (Near p (p.set 0 3) ∧ p.set 0 3 ∈ cartesianCombinations (indices boxRs) ∧
      boxOp (toPP boxRs (p.set 0 3)) = false) := by decide +kernel
  have hop : ∀ p ∈ boxBorder, p ∈ cartesianCombinations (indices boxRs) ∧ boxOp (toPP boxRs p) = true := by decide +kernel
  have hborder : ∀ p ∈ boxBorder, Border boxRs boxOp p := by
    intro p hp
    refine ⟨⟨mem_indices.1 (hop p hp).1, (hop p hp).2⟩, ?_⟩
    rcases hedge p hp with (h | h | h) | h | h | h
    · exact Or.inl ⟨0, 0, h, Or.inl rfl⟩
    · exact Or.inl ⟨1, 0, h, Or.inl rfl⟩
    · exact Or.inl ⟨2, 0, h, Or.inl rfl⟩
    · exact Or.inl ⟨1, 2, h, Or.inr ⟨_, rfl, by rw [hn]⟩⟩
    · exact Or.inl ⟨2, 2, h, Or.inr ⟨_, rfl, by rw [hn]⟩⟩
    · obtain ⟨h1, h2, h3⟩ := hstep p hp h
      exact Or.inr ⟨_, mem_indices.1 h2, h1, by show ¬ boxOp _ = true; rw [h3]; simp⟩
  have hcenter : ¬ Border boxRs boxOp [1, 1, 1] := by
    rintro ⟨-, ⟨d, i, h1, h2⟩ | ⟨q, h1, h2, h3⟩⟩
    · have hd : d = 0 ∨ d = 1 ∨ d = 2 := by
        rcases Nat.lt_or_ge d 3 with h | h
        · omega
        · rw [List.getElem?_eq_none (by simpa using h)] at h1; simp at h1
      have hi : i = 1 := by rcases hd with rfl | rfl | rfl <;> simpa using h1.symm
      have hn' : numIndices ⟨0, 4, 1⟩ = 5 := by decide +kernel
      subst hi
      rcases h2 with h2 | ⟨r, h2, h3⟩
      · omega
      · rcases hd with rfl | rfl | rfl <;> simp [boxRs] at h2 <;> subst h2 <;> simp [hn, hn'] at h3
    · have : ∀ q ∈ cartesianCombinations (indices boxRs), Near [1, 1, 1] q → boxOp (toPP boxRs q) = true := by decide +kernel
      exact h3 (this q (mem_indices.2 h1) h2)
  have hmem : ∀ p, Border boxRs boxOp p → p ∈ boxBorder := by
    intro p hp
    have : ∀ p ∈ cartesianCombinations (indices boxRs), boxOp (toPP boxRs p) = true → p ∈ boxBorder ∨ p = [1, 1, 1] := by decide +kernel
    rcases this p (mem_indices.2 hp.1.1) hp.1.2 with h | h
    · exact h
    · subst h; exact absurd hp hcenter
  have hlist : ∀ i (_ : i < boxBorder.length), 0 < i → ∃ j, ∃ (_ : j < i), Near boxBorder[j] boxBorder[i] := by decide +kernel
  intro a b ha hb _
  obtain ⟨i, hi, rfl⟩ := List.getElem_of_mem (hmem a ha)
  obtain ⟨j, hj, rfl⟩ := List.getElem_of_mem (hmem b hb)
  have h0 := hborder _ (List.getElem_mem (show 0 < boxBorder.length by omega))
  exact (BConn.symm h0 (bconn_list boxBorder hborder hlist i hi)).trans (bconn_list boxBorder hborder hlist j hj)

theorem boxSweep : Sweep boxRs := ⟨by unfold boxRs; decide +kernel, by unfold boxRs; decide +kernel⟩

set_option synthInstance.maxSize 1000 in
theorem boxSimulated : Simulated boxRs boxOp 1 [[1, 1, 1], [4, 1, 1]] [([1, 1, 1], true), ([4, 1, 1], false)] 2 := by
  have h : (simRun boxRs boxOp (Sim.start 1 [] 0 [[1, 1, 1], [4, 1, 1]]) [0, 0, 0, 0]).map (fun s => (s.dom, s.evals, s.thr)) =
      some ([([1, 1, 1], true), ([4, 1, 1], false)], 2, [([], none)]) := by decide +kernel
  obtain ⟨s, e, h⟩ := Option.map_eq_some_iff.1 h
  simp only [Prod.mk.injEq] at h
  exact ⟨_, s, e, by unfold Sim.Joined; rw [h.2.2]; simp, h.1, h.2.1⟩

theorem boxSampled : Samples boxRs 2 [[1, 1, 1], [4, 1, 1]] := ⟨by decide +kernel, by decide +kernel, by decide +kernel⟩

example : ∃ dom' inf, contourTracing boxRs boxOp 46 [([1, 1, 1], true), ([4, 1, 1], false)] [[1, 1, 1], [4, 1, 1]] = some (dom', inf) ∧
    (∀ p ∈ [[1, 1, 1], [4, 1, 1]], OpAt boxRs boxOp p → Traced boxRs boxOp dom' p) ∧
    (∀ q ∈ inf, OpPt boxRs boxOp q) ∧ ∀ p ∈ [[1, 1, 1], [4, 1, 1]], OpAt boxRs boxOp p → p ∈ inf :=
  C63_surface boxSweep (by decide) boxHoleFree boxSampled boxSimulated (by unfold gridSize; decide +kernel)

/-- In the example, the domain holds the box, the points next to it and the other sample, and the center and its neighbours are inferred. -/
example : (contourTracing boxRs boxOp 46 [([1, 1, 1], true), ([4, 1, 1], false)] [[1, 1, 1], [4, 1, 1]]).map
    (fun r => (r.1.length, r.2.length)) = some (37, 7) := by decide +kernel

end Verif.OpDomain
