import Verif.OpDomain.Surface

/-! # Contour tracing in three and more dimensions: the searches -/
namespace Verif.OpDomain

open Verif.Iter

/-- The number of points of the grid. -/
def gridSize (rs : List Range) : Nat := (cartesianCombinations (indices rs)).length

theorem le_gridSize {rs : List Range} {ps : List SP} (hn : ps.Nodup) (h : ∀ p ∈ ps, InGrid rs p) : ps.length ≤ gridSize rs :=
  (List.Nodup.subperm hn (fun p hp => mem_indices.2 (h p hp))).length_le

section
variable {rs : List Range} {op : PP → Bool} (hstep : ∀ r ∈ rs, margin ≤ r.step)
include hstep

theorem anyNonOp_spec (ms : List SP) (hms : ∀ m ∈ ms, InGrid rs m) (ps : List SP) (h : Pts rs ps) :
    ∃ ps' b, anyNonOp rs op (ps.map (ent rs op)) ms = (ps'.map (ent rs op), b) ∧ Pts rs ps' ∧ (∀ p ∈ ps, p ∈ ps') ∧
      (b = true ↔ ∃ m ∈ ms, ¬ OpAt rs op m) := by
  induction ms generalizing ps with
  | nil => exact ⟨ps, false, rfl, h, fun p hp => hp, by simp⟩
  | cons m ms ih =>
    have hg := hms m (by simp)
    unfold anyNonOp
    dsimp only
    rw [query_pts hstep h hg]
    dsimp only
    by_cases hop : op (toPP rs m) = true
    · rw [if_pos hop]
      obtain ⟨ps', b, e, a1, a2, a3⟩ := ih (fun m hm => hms m (by simp [hm])) (ins ps m) (h.ins hg)
      refine ⟨ps', b, e, a1, fun p hp => a2 p (mem_ins.2 (Or.inl hp)), a3.trans ?_⟩
      simp [OpAt, hop]
    · rw [if_neg hop]
      exact ⟨_, true, rfl, h.ins hg, fun p hp => mem_ins.2 (Or.inl hp), by simp [OpAt, hop]⟩

theorem onBoundary_spec {p : SP} (hp : OpPt rs op p) (ps : List SP) (h : Pts rs ps) :
    ∃ ps' b, onBoundary rs op (ps.map (ent rs op)) p = (ps'.map (ent rs op), b) ∧ Pts rs ps' ∧ (∀ p ∈ ps, p ∈ ps') ∧
      (b = true ↔ Border rs op p) := by
  unfold onBoundary
  by_cases he : (moore (sizes rs) p).length < 3 ^ rs.length - 1
  · rw [if_pos he]
    exact ⟨ps, true, rfl, h, fun p hp => hp, by simpa using ⟨hp, Or.inl ((moore_length_lt hp.1).1 he)⟩⟩
  · rw [if_neg he]
    obtain ⟨ps', b, e, a1, a2, a3⟩ := anyNonOp_spec hstep (moore (sizes rs) p) (fun m hm => ((mem_moore hp.1).1 hm).1) ps h
    refine ⟨ps', b, e, a1, a2, a3.trans ?_⟩
    constructor
    · rintro ⟨m, hm, ho⟩
      have := (mem_moore hp.1).1 hm
      exact ⟨hp, Or.inr ⟨m, this.1, this.2, ho⟩⟩
    · rintro ⟨-, h' | ⟨q, h1, h2, h3⟩⟩
      · exact absurd ((moore_length_lt hp.1).2 h') he
      · exact ⟨q, (mem_moore hp.1).2 ⟨h1, h2⟩, h3⟩

theorem expandB_spec (ms : List SP) (hms : ∀ m ∈ ms, InGrid rs m) (ps Q V C : List SP) (h : Pts rs ps) :
    ∃ ps' new, ms.foldl (expandB rs op) ⟨ps.map (ent rs op), Q, V, C⟩ =
        ⟨ps'.map (ent rs op), Q ++ new.filter (fun m => op (toPP rs m)), V ++ new, C⟩ ∧
      Pts rs ps' ∧ (∀ p ∈ ps, p ∈ ps') ∧ (∀ p ∈ new, p ∈ ps' ∧ p ∈ ms ∧ p ∉ V) ∧ new.Nodup ∧ ∀ m ∈ ms, m ∈ V ∨ m ∈ new := by
  induction ms generalizing ps Q V with
  | nil => exact ⟨ps, [], by simp, h, fun p hp => hp, by simp, by simp, by simp⟩
  | cons m ms ih =>
    have hg := hms m (by simp)
    rw [List.foldl_cons]
    by_cases hm : m ∈ V
    · rw [show expandB rs op ⟨ps.map (ent rs op), Q, V, C⟩ m = ⟨ps.map (ent rs op), Q, V, C⟩ from if_pos hm]
      obtain ⟨ps', new, e, a1, a2, a3, a4, a5⟩ := ih (fun m hm => hms m (by simp [hm])) ps Q V h
      refine ⟨ps', new, e, a1, a2, fun p hp => ⟨(a3 p hp).1, by simp [(a3 p hp).2.1], (a3 p hp).2.2⟩, a4, ?_⟩
      intro m' hm'
      rcases List.mem_cons.1 hm' with rfl | hm'
      · exact Or.inl hm
      · exact a5 m' hm'
    · have e0 : expandB rs op ⟨ps.map (ent rs op), Q, V, C⟩ m =
          ⟨(ins ps m).map (ent rs op), Q ++ [m].filter (fun m => op (toPP rs m)), V ++ [m], C⟩ := by
        unfold expandB
        rw [if_neg hm]
        dsimp only
        rw [query_pts hstep h hg]
        by_cases ho : op (toPP rs m) = true <;> simp [ho]
      rw [e0]
      obtain ⟨ps', new, e, a1, a2, a3, a4, a5⟩ :=
        ih (fun m hm => hms m (by simp [hm])) (ins ps m) (Q ++ [m].filter (fun m => op (toPP rs m))) (V ++ [m]) (h.ins hg)
      refine ⟨ps', m :: new, ?_, a1, fun p hp => a2 p (mem_ins.2 (Or.inl hp)), ?_, ?_, ?_⟩
      · rw [e]
        simp only [List.append_assoc, List.singleton_append]
        rw [← List.filter_append]
        rfl
      · intro p hp
        rcases List.mem_cons.1 hp with rfl | hp
        · exact ⟨a2 _ (mem_ins.2 (Or.inr rfl)), by simp, hm⟩
        · obtain ⟨b1, b2, b3⟩ := a3 p hp
          exact ⟨b1, by simp [b2], fun hv => b3 (by simp [hv])⟩
      · exact List.nodup_cons.2 ⟨fun hn => (a3 m hn).2.2 (by simp), a4⟩
      · intro m' hm'
        rcases List.mem_cons.1 hm' with rfl | hm'
        · exact Or.inr (by simp)
        · rcases a5 m' hm' with h' | h'
          · rcases List.mem_append.1 h' with h' | h'
            · exact Or.inl h'
            · simp only [List.mem_singleton] at h'
              exact Or.inr (by simp [h'])
          · exact Or.inr (by simp [h'])

end

/-- The invariant of the search over the boundary. -/
structure BInv (rs : List Range) (op : PP → Bool) (S : SP) (ps Q V C : List SP) : Prop where
  pts : Pts rs ps
  sb : Border rs op S
  sv : S ∈ V
  vp : ∀ v ∈ V, v ∈ ps
  vn : V.Nodup
  qv : ∀ q ∈ Q, q ∈ V ∧ OpAt rs op q ∧ (q = S ∨ ∃ c ∈ C, Near c q)
  cb : ∀ c ∈ C, Border rs op c ∧ BConn rs op S c
  cv : ∀ c ∈ C, ∀ q, InGrid rs q → Near c q → q ∈ V
  cc : ∀ c ∈ C, c ∈ V
  vv : ∀ v ∈ V, OpAt rs op v → v ∈ Q ∨ v ∈ C ∨ ¬ Border rs op v

section
variable {rs : List Range} {op : PP → Bool} (hstep : ∀ r ∈ rs, margin ≤ r.step)
include hstep

theorem bfs_spec {S : SP} (fuel : Nat) (ps Q V C : List SP) (h : BInv rs op S ps Q V C) (hf : Q.length + (gridSize rs - V.length) < fuel) :
    ∃ ps' V' C', bfs rs op fuel ⟨ps.map (ent rs op), Q, V, C⟩ = some ⟨ps'.map (ent rs op), [], V', C'⟩ ∧ BInv rs op S ps' [] V' C' ∧
      (∀ p ∈ ps, p ∈ ps') := by
  induction fuel generalizing ps Q V C with
  | zero => omega
  | succ fuel ih =>
    unfold bfs
    cases Q with
    | nil => exact ⟨ps, V, C, rfl, h, fun p hp => hp⟩
    | cons p Q =>
      obtain ⟨hpv, hpo, hps⟩ := h.qv p (by simp)
      have hpg : InGrid rs p := h.pts.2 p (h.vp p hpv)
      obtain ⟨ps1, b, e1, p1, p2, p3⟩ := onBoundary_spec hstep ⟨hpg, hpo⟩ ps h.pts
      dsimp only
      rw [e1]
      dsimp only
      cases b with
      | false =>
        have hnb : ¬ Border rs op p := fun hb => by simpa using p3.2 hb
        rw [if_neg (by simp)]
        have h' : BInv rs op S ps1 Q V C := {
          pts := p1, sb := h.sb, sv := h.sv, vp := fun v hv => p2 v (h.vp v hv), vn := h.vn
          qv := fun q hq => h.qv q (by simp [hq]), cb := h.cb, cv := h.cv, cc := h.cc
          vv := fun v hv ho => by
            rcases h.vv v hv ho with h' | h' | h'
            · rcases List.mem_cons.1 h' with rfl | h'
              · exact Or.inr (Or.inr hnb)
              · exact Or.inl h'
            · exact Or.inr (Or.inl h')
            · exact Or.inr (Or.inr h') }
        obtain ⟨ps', V', C', e, i1, i2⟩ := ih ps1 Q V C h' (by simp only [List.length_cons] at hf; omega)
        exact ⟨ps', V', C', e, i1, fun q hq => i2 q (p2 q hq)⟩
      | true =>
        have hb : Border rs op p := p3.1 rfl
        rw [if_pos rfl]
        obtain ⟨ps2, new, e2, q1, q2, q3, q4, q5⟩ :=
          expandB_spec (op := op) hstep (moore (sizes rs) p) (fun m hm => ((mem_moore hpg).1 hm).1) ps1 Q V (C ++ [p]) p1
        rw [e2]
        have hbc : BConn rs op S p := by
          rcases hps with rfl | ⟨c, hc, hn⟩
          · exact BConn.refl
          · exact BConn.step (h.cb c hc).2 hn hb
        have hnew : ∀ q ∈ new, InGrid rs q ∧ Near p q := fun q hq => (mem_moore hpg).1 (q3 q hq).2.1
        have hvn : (V ++ new).Nodup := List.nodup_append.2 ⟨h.vn, q4, fun a ha b hb e => (q3 b hb).2.2 (e ▸ ha)⟩
        have hvp : ∀ v ∈ V ++ new, v ∈ ps2 := by
          intro v hv
          rcases List.mem_append.1 hv with hv | hv
          · exact q2 v (p2 v (h.vp v hv))
          · exact (q3 v hv).1
        have h' : BInv rs op S ps2 (Q ++ new.filter (fun m => op (toPP rs m))) (V ++ new) (C ++ [p]) := {
          pts := q1, sb := h.sb, sv := by simp [h.sv], vp := hvp, vn := hvn
          qv := fun q hq => by
            rcases List.mem_append.1 hq with hq | hq
            · obtain ⟨b1, b2, b3⟩ := h.qv q (by simp [hq])
              refine ⟨by simp [b1], b2, ?_⟩
              rcases b3 with b3 | ⟨c, hc, hn⟩
              · exact Or.inl b3
              · exact Or.inr ⟨c, by simp [hc], hn⟩
            · obtain ⟨b1, b2⟩ := List.mem_filter.1 hq
              exact ⟨by simp [b1], b2, Or.inr ⟨p, by simp, (hnew q b1).2⟩⟩
          cb := fun c hc => by
            rcases List.mem_append.1 hc with hc | hc
            · exact h.cb c hc
            · simp only [List.mem_singleton] at hc; subst hc; exact ⟨hb, hbc⟩
          cv := fun c hc q hg hn => by
            rcases List.mem_append.1 hc with hc | hc
            · simp [h.cv c hc q hg hn]
            · simp only [List.mem_singleton] at hc; subst hc
              have := q5 q ((mem_moore hpg).2 ⟨hg, hn⟩)
              simpa using this
          cc := fun c hc => by
            rcases List.mem_append.1 hc with hc | hc
            · simp [h.cc c hc]
            · simp only [List.mem_singleton] at hc; subst hc; simp [hpv]
          vv := fun v hv ho => by
            rcases List.mem_append.1 hv with hv | hv
            · rcases h.vv v hv ho with h' | h' | h'
              · rcases List.mem_cons.1 h' with rfl | h'
                · exact Or.inr (Or.inl (by simp))
                · exact Or.inl (by simp [h'])
              · exact Or.inr (Or.inl (by simp [h']))
              · exact Or.inr (Or.inr h')
            · exact Or.inl (List.mem_append.2 (Or.inr (List.mem_filter.2 ⟨hv, ho⟩))) }
        have hle := le_gridSize hvn (fun v hv => q1.2 v (hvp v hv))
        have hlf := List.length_filter_le (fun m => op (toPP rs m)) new
        simp only [List.length_append, List.length_cons] at hle hf
        obtain ⟨ps', V', C', e, i1, i2⟩ := ih ps2 _ _ _ h' (by simp only [List.length_append]; omega)
        exact ⟨ps', V', C', e, i1, fun q hq => i2 q (q2 q (p2 q hq))⟩

theorem boundary_spec {S : SP} (hb : Border rs op S) (ps : List SP) (h : Pts rs ps) (hs : S ∈ ps) {fuel : Nat} (hf : gridSize rs < fuel) :
    ∃ ps' C, boundary rs op fuel (ps.map (ent rs op)) S = some (ps'.map (ent rs op), C) ∧ Pts rs ps' ∧ (∀ p ∈ ps, p ∈ ps') ∧
      (∀ c, c ∈ C ↔ BConn rs op S c) ∧ ∀ c ∈ C, c ∈ ps' ∧ ∀ q, InGrid rs q → Near c q → q ∈ ps' := by
  have h0 : BInv rs op S ps [S] [S] [] := {
    pts := h, sb := hb, sv := by simp, vp := by simpa using hs, vn := by simp
    qv := by simpa using hb.1.2, cb := by simp, cv := by simp, cc := by simp
    vv := by simp }
  have hle : 1 ≤ gridSize rs := le_gridSize (rs := rs) (ps := [S]) (by simp) (by simpa using hb.1.1)
  obtain ⟨ps', V', C', e, i, i2⟩ := bfs_spec hstep fuel ps [S] [S] [] h0 (by simp only [List.length_singleton]; omega)
  refine ⟨ps', C', by rw [boundary, e]; rfl, i.pts, i2, fun c => ⟨fun hc => (i.cb c hc).2, fun hc => ?_⟩,
    fun c hc => ⟨i.vp c (i.cc c hc), fun q hg hn => i.vp q (i.cv c hc q hg hn)⟩⟩
  induction hc with
  | refl =>
    rcases i.vv S i.sv hb.1.2 with h' | h' | h'
    · simp at h'
    · exact h'
    · exact absurd hb h'
  | step _ hn hr ih =>
    rcases i.vv _ (i.cv _ ih _ hr.1.1 hn) hr.1.2 with h' | h' | h'
    · simp at h'
    · exact h'
    · exact absurd hr h'

/-! ## Inference -/

omit hstep in
theorem inferNbr_spec (dom : Dom) (ms inf rest : List SP) :
    ∃ new, ms.foldl (inferNbr rs dom) (inf, rest) = (inf ++ new, rest ++ new) ∧ new.Nodup ∧ ∀ m ∈ new, m ∈ ms ∧ m ∉ inf := by
  induction ms generalizing inf rest with
  | nil => exact ⟨[], by simp, by simp, by simp⟩
  | cons m ms ih =>
    rw [List.foldl_cons]
    by_cases hm : m ∈ inf
    · rw [show inferNbr rs dom (inf, rest) m = (inf, rest) from if_pos hm]
      obtain ⟨new, e, a1, a2⟩ := ih inf rest
      exact ⟨new, e, a1, fun q hq => ⟨by simp [(a2 q hq).1], (a2 q hq).2⟩⟩
    · by_cases hc : contains dom (toPP rs m) = some false
      · rw [show inferNbr rs dom (inf, rest) m = (inf, rest) by unfold inferNbr; rw [if_neg hm, if_pos hc]]
        obtain ⟨new, e, a1, a2⟩ := ih inf rest
        exact ⟨new, e, a1, fun q hq => ⟨by simp [(a2 q hq).1], (a2 q hq).2⟩⟩
      · rw [show inferNbr rs dom (inf, rest) m = (inf ++ [m], rest ++ [m]) by unfold inferNbr; rw [if_neg hm, if_neg hc]]
        obtain ⟨new, e, a1, a2⟩ := ih (inf ++ [m]) (rest ++ [m])
        refine ⟨m :: new, by rw [e]; simp, List.nodup_cons.2 ⟨fun hn => (a2 m hn).2 (by simp), a1⟩, ?_⟩
        intro q hq
        rcases List.mem_cons.1 hq with rfl | hq
        · exact ⟨by simp, hm⟩
        · exact ⟨by simp [(a2 q hq).1], fun hi => (a2 q hq).2 (by simp [hi])⟩

omit hstep in
theorem inferLoop_spec {S : SP} (dom : Dom) (C inf0 : List SP) (fuel : Nat) (inf Q : List SP) (hi : inf.Nodup) (hg : ∀ q ∈ inf, InGrid rs q)
    (hq : ∀ q ∈ Q, q ∈ inf) (hf : Q.length + (gridSize rs - inf.length) < fuel) :
    ∃ inf', inferLoop rs dom C fuel inf Q = some inf' ∧ inf'.Nodup ∧ (∀ q ∈ inf', InGrid rs q) ∧ (∀ q ∈ inf, q ∈ inf') ∧
      ((∀ b, Border rs op b → Conn rs op S b → b ∈ C) → (∀ q ∈ Q, Conn rs op S q ∧ OpAt rs op q) →
        (∀ q ∈ inf, q ∈ inf0 ∨ (Conn rs op S q ∧ OpAt rs op q)) → ∀ q ∈ inf', q ∈ inf0 ∨ (Conn rs op S q ∧ OpAt rs op q)) := by
  induction fuel generalizing inf Q with
  | zero => omega
  | succ fuel ih =>
    unfold inferLoop
    cases Q with
    | nil => exact ⟨inf, rfl, hi, hg, fun q h => h, fun _ _ h => h⟩
    | cons p Q =>
      simp only [List.length_cons] at hf
      dsimp only
      by_cases hp : p ∈ C
      · rw [if_pos hp]
        obtain ⟨inf', e, a1, a2, a3, a4⟩ := ih inf Q hi hg (fun q h => hq q (by simp [h])) (by omega)
        exact ⟨inf', e, a1, a2, a3, fun h1 h2 => a4 h1 (fun q h => h2 q (by simp [h]))⟩
      · rw [if_neg hp]
        have hpg := hg p (hq p (by simp))
        obtain ⟨new, e0, n1, n2⟩ := inferNbr_spec (rs := rs) dom (vonNeumann (sizes rs) p) inf Q
        rw [e0]
        dsimp only
        have hn : ∀ m ∈ new, InGrid rs m ∧ Near p m := fun m hm => mem_vonNeumann hpg (n2 m hm).1
        have hi' : (inf ++ new).Nodup := List.nodup_append.2 ⟨hi, n1, fun a ha b hb e => (n2 b hb).2 (e ▸ ha)⟩
        have hg' : ∀ q ∈ inf ++ new, InGrid rs q := by
          intro q h
          rcases List.mem_append.1 h with h | h
          · exact hg q h
          · exact (hn q h).1
        have hle := le_gridSize hi' hg'
        rw [List.length_append] at hle
        obtain ⟨inf', e, a1, a2, a3, a4⟩ := ih (inf ++ new) (Q ++ new) hi' hg' (by
          intro q h
          rcases List.mem_append.1 h with h | h
          · simp [hq q (by simp [h])]
          · simp [h]) (by simp only [List.length_append]; omega)
        refine ⟨inf', e, a1, a2, fun q h => a3 q (by simp [h]), fun h1 h2 h3 => a4 h1 ?_ ?_⟩
        all_goals
          have hpc := h2 p (by simp)
          have hnb : ¬ Border rs op p := fun hb => hp (h1 p hb hpc.1)
          have hno : ∀ m ∈ new, Conn rs op S m ∧ OpAt rs op m := by
            intro m hm
            have ho : OpAt rs op m := by
              by_contra ho
              exact hnb ⟨⟨hpg, hpc.2⟩, Or.inr ⟨m, (hn m hm).1, (hn m hm).2, ho⟩⟩
            exact ⟨Conn.step hpc.1 (hn m hm).2 ⟨(hn m hm).1, ho⟩, ho⟩
          intro q h
          rcases List.mem_append.1 h with h | h
        · exact h2 q (by simp [h])
        · exact hno q h
        · exact h3 q h
        · exact Or.inr (hno q h)

omit hstep in
theorem infer_spec {S : SP} (hs : OpPt rs op S) (dom : Dom) (C inf : List SP) (hi : inf.Nodup) (hg : ∀ q ∈ inf, InGrid rs q) {fuel : Nat}
    (hf : gridSize rs < fuel) :
    ∃ inf', infer rs fuel dom C inf S = some inf' ∧ inf'.Nodup ∧ (∀ q ∈ inf', InGrid rs q) ∧ (∀ q ∈ inf, q ∈ inf') ∧ S ∈ inf' ∧
      ((∀ b, Border rs op b → Conn rs op S b → b ∈ C) → ∀ q ∈ inf', q ∈ inf ∨ (Conn rs op S q ∧ OpAt rs op q)) := by
  unfold infer
  by_cases hm : S ∈ inf
  · rw [if_pos hm]
    exact ⟨inf, rfl, hi, hg, fun q h => h, hm, fun _ q h => Or.inl h⟩
  · rw [if_neg hm]
    have hi' : (inf ++ [S]).Nodup := List.nodup_append.2 ⟨hi, by simp, fun a ha b hb e => hm (by simp at hb; exact hb ▸ e ▸ ha)⟩
    have hg' : ∀ q ∈ inf ++ [S], InGrid rs q := by
      intro q h
      rcases List.mem_append.1 h with h | h
      · exact hg q h
      · simp only [List.mem_singleton] at h; exact h ▸ hs.1
    have hle := le_gridSize hi' hg'
    simp only [List.length_append, List.length_singleton] at hle
    obtain ⟨inf', e, a1, a2, a3, a4⟩ := inferLoop_spec (op := op) (S := S) dom C inf fuel (inf ++ [S]) [S] hi' hg' (by simp)
      (by simp only [List.length_append, List.length_singleton]; omega)
    refine ⟨inf', e, a1, a2, fun q h => a3 q (by simp [h]), a3 S (by simp), fun h1 => a4 h1 ?_ ?_⟩
    · intro q h
      simp only [List.mem_singleton] at h
      subst h
      exact ⟨Conn.refl, hs.2⟩
    · intro q h
      rcases List.mem_append.1 h with h | h
      · exact Or.inl h
      · simp only [List.mem_singleton] at h
        subst h
        exact Or.inr ⟨Conn.refl, hs.2⟩

end

end Verif.OpDomain
