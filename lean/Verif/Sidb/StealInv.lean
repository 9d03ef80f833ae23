import Verif.Sidb.StealVal

/-!
# The invariant of the work stealing

Lemmas for `Verif.Sidb.StealProps`.
-/
namespace Verif.Sidb.Gss

open Verif.Sidb Cluster

/-! ## Paths

A queue holds the work of the layers along a path of clustering states, from the one for thieves to the one of the worker. -/

/-- From the clustering state for thieves over frames with a layer of work each to the clustering state of the worker; the
clustering states that are left to unfold. -/
inductive Path (s : State) : Clustering → List Frame → List (List Composition) → Clustering → List Clustering → Prop
  | nil (B : Clustering) (L : List Composition) : Path s B [] [L] B (L.map (addParts B))
  | cons {B : Clustering} {f : Frame} {fs : List Frame} (L : List Composition) {Ls : List (List Composition)} {T : Clustering}
      {p : List Clustering} (hq : (addParts B f.comp).parts[f.ix]? = some f.pst)
      (h : Path s (takeOut s (addParts B f.comp) f.ix f.pst) fs Ls T p) :
      Path s B (f :: fs) (L :: Ls) T (L.map (addParts B) ++ p)

/-- The informant of a frame. -/
def Frame.inf (f : Frame) : Nat × Composition := (f.ix, f.comp)

variable {s : State} {B T : Clustering} {fs : List Frame} {Ls : List (List Composition)} {p : List Clustering}

theorem Path.length (h : Path s B fs Ls T p) : Ls.length = fs.length + 1 := by
  induction h with
  | nil => rfl
  | cons L hq h ih => simp [ih]

theorem Path.ne (h : Path s B fs Ls T p) : Ls ≠ [] := by
  intro e; have := h.length; rw [e] at this; simp at this

theorem Path.push (h : Path s B fs Ls T p) {f : Frame} (hq : (addParts T f.comp).parts[f.ix]? = some f.pst)
    (L : List Composition) :
    Path s B (fs ++ [f]) (Ls ++ [L]) (takeOut s (addParts T f.comp) f.ix f.pst)
      (p ++ L.map (addParts (takeOut s (addParts T f.comp) f.ix f.pst))) := by
  induction h with
  | nil B L' => exact Path.cons L' hq (Path.nil _ L)
  | cons L' hq' h ih =>
    rw [List.append_assoc]
    exact Path.cons L' hq' (ih hq)

theorem Path.take (h : Path s B fs Ls T p) {y : Composition} {L : List Composition} (hl : Ls.getLast? = some (y :: L)) :
    ∃ p', Path s B fs (Ls.dropLast ++ [L]) T p' ∧ p.Perm (addParts T y :: p') := by
  induction h with
  | nil B L' =>
    simp only [List.getLast?_singleton, Option.some.injEq] at hl
    subst hl
    exact ⟨_, Path.nil B L, by simp⟩
  | cons L' hq h ih =>
    rename_i Ls' _ p'
    have hne := h.ne
    rw [List.getLast?_cons_of_ne_nil hne] at hl
    obtain ⟨p'', h1, h2⟩ := ih hl
    rw [List.dropLast_cons_of_ne_nil hne, List.cons_append]
    exact ⟨_, Path.cons L' hq h1, (h2.append_left _).trans List.perm_middle⟩

theorem Path.pop (h : Path s B fs Ls T p) {f : Frame} {gs : List Frame} (hf : fs = gs ++ [f]) (hl : Ls.getLast? = some []) :
    ∃ T0, Path s B gs Ls.dropLast T0 p ∧ (addParts T0 f.comp).parts[f.ix]? = some f.pst ∧
      T = takeOut s (addParts T0 f.comp) f.ix f.pst := by
  induction h generalizing gs with
  | nil B L' => simp at hf
  | cons L' hq h ih =>
    rename_i B f' fs' Ls' T p'
    have hne := h.ne
    rw [List.getLast?_cons_of_ne_nil hne] at hl
    rw [List.dropLast_cons_of_ne_nil hne]
    cases gs with
    | nil =>
      simp only [List.nil_append, List.cons.injEq] at hf
      obtain ⟨rfl, rfl⟩ := hf
      cases h with
      | nil _ L'' =>
        simp only [List.getLast?_singleton, Option.some.injEq] at hl
        subst hl
        refine ⟨B, ?_, hq, rfl⟩
        have := Path.nil (s := s) B L'
        simpa using this
    | cons g gs =>
      simp only [List.cons_append, List.cons.injEq] at hf
      obtain ⟨rfl, rfl⟩ := hf
      obtain ⟨T0, h1, h2, h3⟩ := ih rfl hl
      exact ⟨T0, Path.cons L' hq h1, h2, h3⟩

theorem Path.more (h : Path s B fs Ls T p) (hl : Ls.getLast? = some []) (hp : p ≠ []) : fs ≠ [] := by
  cases h with
  | nil _ L =>
    simp only [List.getLast?_singleton, Option.some.injEq] at hl
    subst hl
    simp at hp
  | cons => simp

theorem Path.steal (h : Path s B fs Ls T p) (hp : p ≠ []) :
    ∃ fs0 fs' L Ls' x y p', fs = fs0 ++ fs' ∧ forward s (fs.map Frame.inf) Ls B = some (fs'.map Frame.inf, L :: Ls', x) ∧
      L.getLast? = some y ∧ Path s x fs' (L.dropLast :: Ls') T p' ∧ p.Perm (addParts x y :: p') ∧
      (Ls.getLast? = some [] → fs' ≠ [] ∧ (L.dropLast :: Ls').getLast? = some []) := by
  induction h with
  | nil B L =>
    have hL : L ≠ [] := by rintro rfl; simp at hp
    obtain ⟨init, y, rfl⟩ := (List.eq_nil_or_concat L).resolve_left hL
    rw [List.concat_eq_append] at hp ⊢
    refine ⟨[], [], init ++ [y], [], B, y, init.map (addParts B), rfl, rfl, by simp, ?_, ?_, ?_⟩
    · simpa using Path.nil (s := s) B init
    · simpa using List.perm_append_singleton _ _
    · intro e; simp at e
  | cons L hq h ih =>
    rename_i B f fs' Ls' T p'
    have hne := h.ne
    by_cases hL : L = []
    · subst hL
      obtain ⟨fs0, fs1, L1, Ls1, x, y, p1, e1, e2, e3, e4, e5, e6⟩ := ih (by simpa using hp)
      refine ⟨f :: fs0, fs1, L1, Ls1, x, y, p1, by rw [e1]; rfl, ?_, e3, e4, by simpa using e5, ?_⟩
      · simp only [List.map_cons, Frame.inf, forward, List.isEmpty_nil, if_true]
        rw [hq]
        exact e2
      · rw [List.getLast?_cons_of_ne_nil hne]
        exact e6
    · obtain ⟨init, y, rfl⟩ := (List.eq_nil_or_concat L).resolve_left hL
      rw [List.concat_eq_append] at hp ⊢
      refine ⟨[], f :: fs', init ++ [y], Ls', B, y, init.map (addParts B) ++ p', rfl, ?_, by simp, ?_, ?_, ?_⟩
      · simp [forward, Frame.inf]
      · simpa using Path.cons init hq h
      · simp
      · intro e
        rw [List.getLast?_cons_of_ne_nil hne] at e
        exact ⟨by simp, by rw [List.getLast?_cons_of_ne_nil hne]; exact e⟩

/-! ## Workers -/

/-- A worker that is unfolding, with `p0` in its queue. -/
def Busy (w : Worker) (fs : List Frame) (p0 p : List Clustering) : Prop :=
  match w.pc with
  | .enter y => p = addParts w.state y :: p0
  | .next => p = p0 ∧ w.frames ≠ []
  | .pop => p = p0 ∧ fs ≠ [] ∧ w.queue.layers.getLast? = some []
  | .idle => p = p0 ∧ w.frames = []
  | _ => False

/-- A worker without work in its queue. -/
def Out (w : Worker) (p : List Clustering) : Prop :=
  match w.pc with
  | .fail => p = []
  | .next => p = []
  | .idle => p = [] ∧ w.frames = []
  | .done => p = [] ∧ w.frames = []
  | .steal _ _ => p = [] ∧ w.frames = []
  | .init x y => p = [addParts x y] ∧ w.state = x ∧ w.frames = []
  | _ => False

/-- What is left to unfold to a worker. -/
def WInv (s : State) (w : Worker) (p : List Clustering) : Prop :=
  w.firsts.length = w.frames.length ∧
  ((∃ fs rest p0, w.frames = fs.reverse ++ rest ∧ w.queue.informants = fs.map Frame.inf ∧
    Path s w.queue.base fs w.queue.layers w.state p0 ∧ w.queue.count = p0.length ∧ Busy w fs p0 p) ∨
  (w.queue.count = 0 ∧ Out w p))

/-! ## Steps of a worker -/

theorem get_path {Q : Queue} {p0 : List Clustering} (h : Path s Q.base fs Q.layers T p0) (hc : Q.count = p0.length) :
    (Q.get = some (.nothing, Q) ∧ p0 = []) ∨ (Q.get = some (.more, Q) ∧ Q.layers.getLast? = some [] ∧ p0 ≠ []) ∨
    ∃ y Q' p', Q.get = some (.work y, Q') ∧ Q'.base = Q.base ∧ Q'.informants = Q.informants ∧ Q'.count = p'.length ∧
      Path s Q.base fs Q'.layers T p' ∧ p0.Perm (addParts T y :: p') := by
  unfold Queue.get
  by_cases h0 : Q.count = 0
  · left
    rw [if_pos h0]
    exact ⟨rfl, List.length_eq_zero_iff.mp (by omega)⟩
  · right
    have hp0 : p0 ≠ [] := by rintro rfl; simp at hc; exact h0 hc
    rw [if_neg h0]
    cases e : Q.layers.getLast? with
    | none => exact absurd (List.getLast?_eq_none_iff.mp e) h.ne
    | some L =>
      cases L with
      | nil => left; exact ⟨rfl, rfl, hp0⟩
      | cons y L =>
        right
        obtain ⟨p', h1, h2⟩ := h.take e
        refine ⟨y, _, p', rfl, rfl, rfl, ?_, h1, h2⟩
        have := h2.length_eq
        simp only [List.length_cons] at this
        simp only
        omega

variable {E : Env} {P : Params} {top : Cluster}

theorem idle_step {w : Worker} (hpc : w.pc = .idle) (h : WInv s w p) :
    ∃ w' p', w.idle = some w' ∧ WInv s w' p' ∧ p.Perm p' := by
  obtain ⟨hsy, h⟩ := h
  rcases h with ⟨fs, rest, p0, h1, h2, h3, h4, h5⟩ | ⟨h1, h2⟩
  · unfold Busy at h5
    rw [hpc] at h5
    obtain ⟨rfl, hf⟩ := h5
    have hfs : fs = [] := by
      have := h1.symm.trans hf
      simp at this
      exact this.1
    unfold Worker.idle
    rcases get_path h3 h4 with ⟨g, gp⟩ | ⟨g, gl, gp⟩ | ⟨y, Q', p', g, g1, g2, g3, g4, g5⟩
    · rw [g]
      refine ⟨_, [], rfl, ⟨hsy, Or.inr ⟨by simp [h4, gp], ?_⟩⟩, by rw [gp]⟩
      simp only [Out]
      exact ⟨trivial, hf⟩
    · exact absurd hfs (h3.more gl gp)
    · rw [g]
      refine ⟨_, addParts w.state y :: p', rfl, ⟨hsy, Or.inl ⟨fs, rest, p', h1, ?_, ?_, g3, ?_⟩⟩, g5⟩
      · simp only [g2, h2]
      · simp only [g1]; exact g4
      · simp only [Busy]
  · unfold Out at h2
    rw [hpc] at h2
    obtain ⟨rfl, hf⟩ := h2
    unfold Worker.idle Queue.get
    rw [if_pos h1]
    exact ⟨_, [], rfl, ⟨hsy, Or.inr ⟨h1, ⟨rfl, hf⟩⟩⟩, List.Perm.refl _⟩

theorem next_step {w : Worker} (hpc : w.pc = .next) (h : WInv s w p) :
    ∃ w' p', w.next = some w' ∧ WInv s w' p' ∧ p.Perm p' := by
  obtain ⟨hsy, h⟩ := h
  rcases h with ⟨fs, rest, p0, h1, h2, h3, h4, h5⟩ | ⟨h1, h2⟩
  · unfold Busy at h5
    rw [hpc] at h5
    obtain ⟨rfl, hf⟩ := h5
    unfold Worker.next
    rcases get_path h3 h4 with ⟨g, gp⟩ | ⟨g, gl, gp⟩ | ⟨y, Q', p', g, g1, g2, g3, g4, g5⟩
    · rw [g]
      exact ⟨_, [], rfl, ⟨hsy, Or.inr ⟨by simp [h4, gp], rfl⟩⟩, by rw [gp]⟩
    · rw [g]
      exact ⟨_, p, rfl, ⟨hsy, Or.inl ⟨fs, rest, p, h1, h2, h3, h4, ⟨rfl, h3.more gl gp, gl⟩⟩⟩, List.Perm.refl _⟩
    · rw [g]
      refine ⟨_, addParts w.state y :: p', rfl, ⟨?_, Or.inl ⟨fs, rest, p', h1, ?_, ?_, g3, ?_⟩⟩, g5⟩
      · have : w.frames.length ≠ 0 := by simpa using hf
        simp
        omega
      · simp only [g2, h2]
      · simp only [g1]; exact g4
      · simp only [Busy]
  · unfold Out at h2
    rw [hpc] at h2
    subst h2
    unfold Worker.next Queue.get
    rw [if_pos h1]
    exact ⟨_, [], rfl, ⟨hsy, Or.inr ⟨h1, rfl⟩⟩, List.Perm.refl _⟩

theorem fail_step {w : Worker} (hpc : w.pc = .fail) (h : WInv s w p) : WInv s w.fail p := by
  obtain ⟨hsy, h⟩ := h
  rcases h with ⟨fs, rest, p0, h1, h2, h3, h4, h5⟩ | ⟨h1, h2⟩
  · unfold Busy at h5
    rw [hpc] at h5
    exact h5.elim
  · unfold Out at h2
    rw [hpc] at h2
    subst h2
    unfold Worker.fail
    split
    · exact ⟨rfl, Or.inr ⟨h1, rfl, rfl⟩⟩
    · rename_i e
      refine ⟨?_, Or.inr ⟨h1, rfl⟩⟩
      have := congrArg List.length e
      simp only [List.length_tail] at this ⊢
      rw [← this, hsy]
    · rename_i e
      refine ⟨?_, Or.inr ⟨h1, rfl⟩⟩
      have := congrArg List.length e
      simp only [List.length_tail] at this ⊢
      rw [← this, hsy]

theorem returned_busy {w : Worker} {fr : List Frame} {fs : List Frame} {p0 : List Clustering} (hpc : w.pc = w.returned fr)
    (hf : w.frames = fr) : Busy w fs p0 p0 := by
  unfold Busy
  rw [hpc]
  unfold Worker.returned
  cases fr with
  | nil => simp [hf]
  | cons a t => simp [hf]

theorem pop_step {w : Worker} (hpc : w.pc = .pop) (h : WInv s w p) :
    ∃ w', w.pop s = some w' ∧ WInv s w' p := by
  obtain ⟨hsy, h⟩ := h
  rcases h with ⟨fs, rest, p0, h1, h2, h3, h4, h5⟩ | ⟨h1, h2⟩
  · unfold Busy at h5
    rw [hpc] at h5
    obtain ⟨rfl, hne, hl⟩ := h5
    obtain ⟨gs, f, rfl⟩ := (List.eq_nil_or_concat fs).resolve_left hne
    rw [List.concat_eq_append] at h1 h2 h3
    obtain ⟨T0, k1, k2, k3⟩ := h3.pop rfl hl
    have hfr : w.frames = f :: (gs.reverse ++ rest) := by rw [h1]; simp
    unfold Worker.pop
    rw [hfr]
    simp only
    have hq : w.queue.popLayer = some { w.queue with layers := w.queue.layers.dropLast, informants := w.queue.informants.dropLast } := by
      unfold Queue.popLayer
      rw [if_neg (by rw [h2]; simp), if_neg (by simp [h3.ne])]
    rw [hq]
    simp only [Option.map_some]
    refine ⟨_, rfl, ⟨?_, Or.inl ⟨gs, rest, p, rfl, ?_, ?_, h4, ?_⟩⟩⟩
    · simp only [List.length_tail, hsy, hfr]
      simp
    · simp only [h2, List.map_append, List.map_cons, List.map_nil, List.dropLast_concat]
    · simp only
      rw [k3, addParent_takeOut s _ k2, removeParts_addParts]
      exact k1
    · exact returned_busy rfl rfl
  · unfold Out at h2
    rw [hpc] at h2
    exact h2.elim

theorem init_step {w : Worker} {x : Clustering} {y : Composition} (hpc : w.pc = .init x y) (h : WInv s w p) :
    WInv s { w with queue := .afterStealing x, pc := .enter y } p := by
  obtain ⟨hsy, h⟩ := h
  rcases h with ⟨fs, rest, p0, h1, h2, h3, h4, h5⟩ | ⟨h1, h2⟩
  · unfold Busy at h5
    rw [hpc] at h5
    exact h5.elim
  · unfold Out at h2
    rw [hpc] at h2
    obtain ⟨rfl, rfl, hf⟩ := h2
    exact ⟨hsy, Or.inl ⟨[], [], [], by simp [hf], rfl, Path.nil _ [], rfl, rfl⟩⟩

theorem enter_step (hn : 0 < E.n) (hr : Ready' E P top s) (hc : Composed s) {w : Worker} {y : Composition} (hpc : w.pc = .enter y)
    (h : WInv s w p) (hst : ∀ x ∈ p, St E top s x) :
    ∃ w' r p', w.enter E s y = some (w', r) ∧ WInv s w' p' ∧ (∀ x ∈ p', St E top s x) ∧
      (p.flatMap (val E s)).Perm (r ++ p'.flatMap (val E s)) ∧ (p'.map (weight E s)).sum < (p.map (weight E s)).sum := by
  obtain ⟨hsy, h⟩ := h
  rcases h with ⟨fs, rest, p0, h1, h2, h3, h4, h5⟩ | ⟨h1, h2⟩
  · unfold Busy at h5
    rw [hpc] at h5
    simp only at h5
    subst h5
    have hw0 := weight_pos (E := E) (s := s) (addParts w.state y)
    have hx := hst (addParts w.state y) (by simp)
    have hst0 : ∀ x ∈ p0, St E top s x := fun x hx => hst x (by simp [hx])
    unfold Worker.enter
    simp only
    by_cases hm : (!meetsCriterion E (addParts w.state y)) = true
    · rw [if_pos hm]
      refine ⟨_, _, p0, rfl, ⟨hsy, Or.inl ⟨fs, rest, p0, h1, h2, ?_, h4, returned_busy rfl rfl⟩⟩, hst0, ?_,
        by simp only [List.map_cons, List.sum_cons]; omega⟩
      · simp only; rw [removeParts_addParts]; exact h3
      · rw [List.flatMap_cons, val_pruned hn hx hm]
    rw [if_neg hm]
    by_cases hl : (addParts w.state y).parts.length = E.n
    · rw [if_pos hl]
      refine ⟨_, _, p0, rfl, ⟨hsy, Or.inl ⟨fs, rest, p0, h1, h2, ?_, h4, returned_busy rfl rfl⟩⟩, hst0, ?_,
        by simp only [List.map_cons, List.sum_cons]; omega⟩
      · simp only; rw [removeParts_addParts]; exact h3
      · rw [List.flatMap_cons, val_leaf hn hx hm hl]
    rw [if_neg hl]
    obtain ⟨hlt, hch⟩ := hx.next hl hn
    have hq := List.getElem?_eq_getElem hlt
    rw [hq]
    simp only
    have hv := val_inner hn hr hx hm hl hlt hch
    cases e : compsOf s (addParts w.state y).parts[largest (addParts w.state y).parts] with
    | nil => exact absurd e (compsOf_ne hc hx (List.getElem_mem hlt))
    | cons z zs =>
      simp only
      have hpush : Path s w.queue.base
          (fs ++ [⟨largest (addParts w.state y).parts, (addParts w.state y).parts[largest (addParts w.state y).parts], y⟩])
          (w.queue.layers ++ [zs.reverse])
          (takeOut s (addParts w.state y) (largest (addParts w.state y).parts)
            (addParts w.state y).parts[largest (addParts w.state y).parts])
          (p0 ++ zs.reverse.map (addParts (takeOut s (addParts w.state y) (largest (addParts w.state y).parts)
            (addParts w.state y).parts[largest (addParts w.state y).parts]))) :=
        h3.push (f := ⟨largest (addParts w.state y).parts, _, y⟩) hq zs.reverse
      refine ⟨_, _, addParts (takeOut s (addParts w.state y) (largest (addParts w.state y).parts)
            (addParts w.state y).parts[largest (addParts w.state y).parts]) z :: (p0 ++ zs.reverse.map (addParts (takeOut s (addParts w.state y) (largest (addParts w.state y).parts)
            (addParts w.state y).parts[largest (addParts w.state y).parts]))), rfl,
        ⟨by simp [hsy], Or.inl ⟨fs ++ [⟨largest (addParts w.state y).parts, (addParts w.state y).parts[largest (addParts w.state y).parts], y⟩],
          rest, _, ?_, ?_, ?_, ?_, rfl⟩⟩, ?_, ?_, ?_⟩
      · simp [h1]
      · simp [Queue.add, h2, Frame.inf]
      · simp only [Queue.add, List.tail_cons]
        exact hpush
      · simp [Queue.add, h4]
      · intro x hx'
        rcases List.mem_cons.mp hx' with rfl | hx'
        · exact hx.step hr hlt hch (by rw [e]; simp)
        · rcases List.mem_append.mp hx' with hx' | hx'
          · exact hst0 x hx'
          · obtain ⟨y', hy', rfl⟩ := List.mem_map.mp hx'
            exact hx.step hr hlt hch (by rw [e]; simp at hy'; simp [hy'])
      · rw [List.flatMap_cons, hv, e, List.nil_append, List.flatMap_cons, List.flatMap_cons, List.flatMap_append,
          List.append_assoc, List.flatMap_map]
        refine List.Perm.append_left _ ?_
        exact List.perm_append_comm.trans (List.Perm.append_left _ ((List.reverse_perm zs).symm.flatMap_right _))
      · have hv' := weight_inner hn hr hx hm hl hlt hch
        rw [e] at hv'
        simp only [List.map_cons, List.sum_cons] at hv'
        simp only [List.map_cons, List.sum_cons, List.map_append, List.sum_append, List.map_map]
        rw [hv', ((List.reverse_perm zs).map _).sum_eq]
        simp only [Function.comp_def]
        omega
  · unfold Out at h2
    rw [hpc] at h2
    exact h2.elim

end Verif.Sidb.Gss
