import Verif.SidbAnalysis.BdlLemmas
import Mathlib.Data.List.Sort

/-!
# C68: BDL pairs and BDL wires
-/
namespace Verif.SidbAnalysis.Bdl

variable {α K : Type} [LinearOrder α] [LinearOrder K]

/-- For every layout, all thresholds and whatever the unstable sort does with equal distances, the BDL pairs of a type
are a stable pairing of the dots of that type, listed from the top left to the bottom right, and carry that type. -/
theorem C68_pairs {sort : List (α × α) → List (α × α)} {dist : α → α → K} (lo hi : K) {L : Lyt α}
    (hsort : SortsByDistance dist sort) (hsym : ∀ a b, dist a b = dist b a) (hL : L.Ok) (t : Ty) :
    StablePairing dist lo hi (L.cells.filter fun c => L.ty c = t) (detectPairs sort dist lo hi L (some t)) ∧
    Ascending (detectPairs sort dist lo hi L (some t)) ∧
    ∀ p ∈ detectPairs sort dist lo hi L (some t), p.type = t := by
  have e : detectPairs sort dist lo hi L (some t) = pairUp sort dist lo hi L.ty (dotsOf L t) := rfl
  obtain ⟨h1, h2⟩ := pairUp_spec (lo := lo) (hi := hi) (ty := L.ty) hsort hsym (dotsOf_nodup hL t)
  have hm : ∀ c, c ∈ dotsOf L t ↔ c ∈ L.cells.filter fun c => L.ty c = t := fun c => by
    rw [dotsOf_mem hL]; simp
  rw [e]
  refine ⟨⟨?_, h1.ordered, h1.distance, h1.disjoint, ?_⟩, ?_, ?_⟩
  · intro p hp; rw [← hm, ← hm]; exact h1.mem p hp
  · intro a ha b hb; exact h1.stable a ((hm a).2 ha) b ((hm b).2 hb)
  · exact ascending_of (sortPairs_le _) h1.disjoint
  · intro p hp
    have h3 := h1.mem p hp
    rw [dotsOf_mem hL, dotsOf_mem hL] at h3
    rcases h2 p hp with h | h
    · rw [h, h3.1.2]
    · rw [h, h3.2.2]

/-- If no two pairs of dots of the type have the same distance, the result does not depend on the sorting algorithm:
any stable pairing, listed in the same order, has the same dots. -/
theorem C68_unique {sort : List (α × α) → List (α × α)} {dist : α → α → K} (lo hi : K) {L : Lyt α}
    (hsort : SortsByDistance dist sort) (hsym : ∀ a b, dist a b = dist b a) (hL : L.Ok) (t : Ty)
    (hinj : ∀ a ∈ L.cells.filter (fun c => L.ty c = t), ∀ b ∈ L.cells.filter (fun c => L.ty c = t),
      ∀ c ∈ L.cells.filter (fun c => L.ty c = t), ∀ d ∈ L.cells.filter (fun c => L.ty c = t), a < b → c < d →
      dist a b = dist c d → a = c ∧ b = d)
    (res : List (Pair α)) (hres : StablePairing dist lo hi (L.cells.filter fun c => L.ty c = t) res)
    (hasc : Ascending res) (hty : ∀ p ∈ res, p.type = t) :
    detectPairs sort dist lo hi L (some t) = res := by
  obtain ⟨h1, h2, h3⟩ := C68_pairs lo hi hsort hsym hL t
  have sub : ∀ {r s : List (Pair α)}, StablePairing dist lo hi (L.cells.filter fun c => L.ty c = t) r →
      StablePairing dist lo hi (L.cells.filter fun c => L.ty c = t) s → (∀ p ∈ r, p.type = t) → (∀ p ∈ s, p.type = t) →
      ∀ p ∈ r, p ∈ s := by
    intro r s hr hs htr hts p hp
    obtain ⟨q, hq, e1, e2⟩ := stable_unique hinj hr hs p hp
    have : p = q := by
      cases p; cases q
      have e3 := htr _ hp; have e4 := hts _ hq
      simp only at e1 e2 e3 e4
      rw [e1, e2, e3, e4]
    exact this ▸ hq
  have nodup : ∀ {r : List (Pair α)}, Ascending r → r.Nodup := fun h => h.imp fun {a b} hab he => by
    subst he; rcases hab with h | ⟨_, h⟩ <;> exact lt_irrefl _ h
  have hperm : (detectPairs sort dist lo hi L (some t)).Perm res :=
    (List.perm_ext_iff_of_nodup (nodup h2) (nodup hasc)).2 fun p => ⟨sub h1 hres h3 hty p, sub hres h1 hty h3 p⟩
  refine hperm.eq_of_pairwise ?_ h2 hasc
  intro a b _ _ hab hba
  exfalso; grind

/-- Without a type, the pairs are the ones of the inputs, of the outputs and of the normal dots, and no dot is in two
of them. -/
theorem C68_all_pairs {sort : List (α × α) → List (α × α)} {dist : α → α → K} (lo hi : K) {L : Lyt α}
    (hsort : SortsByDistance dist sort) (hsym : ∀ a b, dist a b = dist b a) (hL : L.Ok) :
    (∀ p, p ∈ detectPairs sort dist lo hi L none ↔ p ∈ detectPairs sort dist lo hi L (some .input) ∨
      p ∈ detectPairs sort dist lo hi L (some .output) ∨ p ∈ detectPairs sort dist lo hi L (some .normal)) ∧
    ((detectPairs sort dist lo hi L none).flatMap Pair.dots).Nodup := by
  refine ⟨fun p => ?_, ?_⟩
  · have e : detectPairs sort dist lo hi L none = detectPairs sort dist lo hi L (some .input) ++
      detectPairs sort dist lo hi L (some .output) ++ detectPairs sort dist lo hi L (some .normal) := rfl
    rw [e]; simp only [List.mem_append, or_assoc]
  · have e : detectPairs sort dist lo hi L none = detectPairs sort dist lo hi L (some .input) ++
      detectPairs sort dist lo hi L (some .output) ++ detectPairs sort dist lo hi L (some .normal) := rfl
    have hd : ∀ t c, c ∈ (detectPairs sort dist lo hi L (some t)).flatMap Pair.dots → L.ty c = t := by
      intro t c hc
      obtain ⟨p, hp, hc⟩ := List.mem_flatMap.1 hc
      have := (C68_pairs lo hi hsort hsym hL t).1.mem p hp
      simp only [Pair.dots, List.mem_cons, List.not_mem_nil, or_false] at hc
      simp only [List.mem_filter, decide_eq_true_eq] at this
      rcases hc with rfl | rfl
      · exact this.1.2
      · exact this.2.2
    rw [e, List.flatMap_append, List.flatMap_append, List.nodup_append', List.nodup_append']
    refine ⟨⟨(C68_pairs lo hi hsort hsym hL _).1.disjoint, (C68_pairs lo hi hsort hsym hL _).1.disjoint, ?_⟩,
      (C68_pairs lo hi hsort hsym hL _).1.disjoint, ?_⟩
    · intro c h1 h2; have := hd _ c h1; have := hd _ c h2; simp_all
    · intro c h1 h2
      have h2 := hd _ c h2
      rcases List.mem_append.1 h1 with h1 | h1 <;> (have := hd _ c h1; simp_all)

/-- The set of pairs the wires are made of. -/
theorem aggregate_spec {sort : List (α × α) → List (α × α)} {dist : α → α → K} (lo hi : K) {L : Lyt α}
    (hsort : SortsByDistance dist sort) (hsym : ∀ a b, dist a b = dist b a) (hL : L.Ok) :
    (aggregate sort dist lo hi L).Perm (detectPairs sort dist lo hi L none) ∧
    (aggregate sort dist lo hi L).Pairwise (fun a b => pairLt a b = true) := by
  have hpw : (detectPairs sort dist lo hi L none ++ []).Pairwise fun p q : Pair α =>
      ¬ (p.upper = q.upper ∧ p.lower = q.lower) := by
    rw [List.append_nil]
    refine (flatMap_dots_inj (C68_all_pairs lo hi hsort hsym hL).2).imp ?_
    intro p q h he
    exact h p.upper (by simp [Pair.dots]) (by simp [Pair.dots, he.1])
  have := foldl_setInsert _ [] hpw .nil
  rwa [List.append_nil] at this

/-- The detection of wires terminates; every BDL pair is in exactly one wire, every wire is connected and lists its
pairs from the top left to the bottom right. -/
theorem C68_wires {sort : List (α × α) → List (α × α)} {dist : α → α → K} (lo hi thr : K) {L : Lyt α}
    (hsort : SortsByDistance dist sort) (hsym : ∀ a b, dist a b = dist b a) (hL : L.Ok) :
    ∃ ws, detectWires sort dist lo hi thr L = some ws ∧ ws.flatten.Perm (detectPairs sort dist lo hi L none) ∧
      ∀ w ∈ ws, w ≠ [] ∧ Connected (fun a b => decide (dist a b < thr)) w ∧ Ascending w := by
  obtain ⟨h1, h2⟩ := aggregate_spec lo hi hsort hsym hL
  have hd : Distinct (aggregate sort dist lo hi L) := h2.imp fun {a b} hab he => by
    rw [pairLt_iff] at hab; grind
  obtain ⟨ws, h3, h4, h5⟩ := wireLoop_spec (near := fun a b => decide (dist a b < thr)) (fun a b => by simp only [hsym a b])
    ((aggregate sort dist lo hi L).length + 1) ((aggregate sort dist lo hi L).length + 1) (aggregate sort dist lo hi L)
    (by omega) (by omega) hd
  refine ⟨ws, h3, h4.trans h1, fun w hw => ⟨(h5 w hw).2.2, (h5 w hw).1, ?_⟩⟩
  exact ascending_of_distinct (h5 w hw).2.1 ((hd.perm h4.symm).sublist (List.sublist_flatten_of_mem hw))

/-- Two pairs connected by a sequence of detected pairs that follow each other. -/
def Reaches (near : α → α → Bool) (s : List (Pair α)) : Pair α → Pair α → Prop :=
  Relation.ReflTransGen fun a b => a ∈ s ∧ b ∈ s ∧ Linked near a b

/-- Where no pair follows more than two others and the topmost pair of each connected group is an end of it, the wires
are exactly the connected groups of pairs. The full property, without these conditions, is false: see
`C68_false_wires`. -/
theorem C68_complete_partial {sort : List (α × α) → List (α × α)} {dist : α → α → K} (lo hi thr : K) {L : Lyt α}
    (hsort : SortsByDistance dist sort) (hsym : ∀ a b, dist a b = dist b a) (hL : L.Ok)
    (hdeg : ∀ p ∈ detectPairs sort dist lo hi L none, ∀ a ∈ detectPairs sort dist lo hi L none,
      ∀ b ∈ detectPairs sort dist lo hi L none, ∀ c ∈ detectPairs sort dist lo hi L none, a ≠ p → b ≠ p → c ≠ p →
      Linked (fun a b => decide (dist a b < thr)) p a → Linked (fun a b => decide (dist a b < thr)) p b →
      Linked (fun a b => decide (dist a b < thr)) p c → a = b ∨ a = c ∨ b = c)
    (hend : ∀ p ∈ detectPairs sort dist lo hi L none, ∀ a ∈ detectPairs sort dist lo hi L none,
      ∀ b ∈ detectPairs sort dist lo hi L none, a ≠ p → b ≠ p → a ≠ b →
      Linked (fun a b => decide (dist a b < thr)) p a → Linked (fun a b => decide (dist a b < thr)) p b →
      ∃ q, Reaches (fun a b => decide (dist a b < thr)) (detectPairs sort dist lo hi L none) p q ∧
        (q.upper < p.upper ∨ (q.upper = p.upper ∧ q.lower < p.lower)))
    (ws : List (List (Pair α))) (h : detectWires sort dist lo hi thr L = some ws) (w : List (Pair α)) (hw : w ∈ ws)
    (p : Pair α) (hp : p ∈ w) (q : Pair α) :
    q ∈ w ↔ Reaches (fun a b => decide (dist a b < thr)) (detectPairs sort dist lo hi L none) p q := by
  obtain ⟨h1, h2⟩ := aggregate_spec lo hi hsort hsym hL
  obtain ⟨ws', h3, h4, h5⟩ := C68_wires lo hi thr hsort hsym hL
  obtain rfl : ws' = ws := by rw [h] at h3; exact (Option.some.inj h3).symm
  have hmem := fun x => h1.mem_iff (a := x)
  have hcl := wireLoop_closed (near := fun a b => decide (dist a b < thr)) (fun a b => by simp only [hsym a b])
    (s0 := aggregate sort dist lo hi L)
    (fun p hp a ha b hb c hc => hdeg p ((hmem p).1 hp) a ((hmem a).1 ha) b ((hmem b).1 hb) c ((hmem c).1 hc))
    (fun p hp a ha b hb n1 n2 n3 l1 l2 => by
      obtain ⟨q, hq, hlt⟩ := hend p ((hmem p).1 hp) a ((hmem a).1 ha) b ((hmem b).1 hb) n1 n2 n3 l1 l2
      refine ⟨q, Relation.ReflTransGen.mono ?_ _ _ hq, pairLt_iff.2 hlt⟩
      rintro x y ⟨hx, hy, hxy⟩
      exact ⟨(hmem x).2 hx, (hmem y).2 hy, hxy⟩)
    ((aggregate sort dist lo hi L).length + 1) ((aggregate sort dist lo hi L).length + 1) (aggregate sort dist lo hi L)
    h2 (fun _ hx => hx) (fun _ _ y hy _ => hy) (by omega) ws' h w hw
  constructor
  · intro hq
    refine Relation.ReflTransGen.mono ?_ _ _ ((h5 w hw).2.1 p hp q hq)
    rintro x y ⟨hx, hy, hxy⟩
    exact ⟨h4.mem_iff.1 (List.mem_flatten.2 ⟨w, hw, hx⟩), h4.mem_iff.1 (List.mem_flatten.2 ⟨w, hw, hy⟩), hxy⟩
  · intro hq
    induction hq with
    | refl => exact hp
    | tail _ hyz ih => exact hcl _ ih _ ((hmem _).2 hyz.2.1) hyz.2.2

omit [LinearOrder α] in
/-- Selecting the input wires keeps the wires with an input pair, in their order, without their output pairs; and
likewise for the output wires. -/
theorem C68_selection (t o : Ty) (ws : List (List (Pair α))) :
    filterWires t o ws = (ws.filter fun w => ∃ p ∈ w, p.type = t).map fun w => w.filter fun p => p.type ≠ o := by
  unfold filterWires
  have e : (ws.filter fun w => w.any fun p => decide (p.type = t)) = ws.filter fun w => ∃ p ∈ w, p.type = t := by
    refine List.filter_congr fun w _ => ?_
    rw [Bool.eq_iff_iff]; simp
  rw [e]
  refine List.map_congr_left fun w _ => ?_
  split_ifs with h
  · rfl
  · symm
    refine List.filter_eq_self.2 fun p hp => ?_
    simp only [List.any_eq_true, decide_eq_true_eq, not_exists, not_and] at h
    simpa using h p hp

/-! ## Examples -/

namespace Example

/-- The square of the distance of two cells; cell `100 * y + x` is at `(x, y)`. -/
def dist2 (a b : Nat) : Nat :=
  let dx := (a % 100 - b % 100) + (b % 100 - a % 100)
  let dy := (a / 100 - b / 100) + (b / 100 - a / 100)
  dx * dx + dy * dy

/-- Insertion sort by distance. -/
def insertBy (p : Nat × Nat) : List (Nat × Nat) → List (Nat × Nat)
  | [] => [p]
  | q :: l => if dist2 p.1 p.2 ≤ dist2 q.1 q.2 then p :: q :: l else q :: insertBy p l

def sortBy (l : List (Nat × Nat)) : List (Nat × Nat) := l.foldr insertBy []

theorem insertBy_perm (p : Nat × Nat) : ∀ l, (insertBy p l).Perm (p :: l)
  | [] => .refl _
  | q :: l => by
    unfold insertBy; split_ifs
    · exact .refl _
    · exact ((insertBy_perm p l).cons q).trans (.swap _ _ _)

theorem insertBy_sorted (p : Nat × Nat) : ∀ l : List (Nat × Nat),
    (l.Pairwise fun p q => dist2 p.1 p.2 ≤ dist2 q.1 q.2) →
    (insertBy p l).Pairwise fun p q => dist2 p.1 p.2 ≤ dist2 q.1 q.2
  | [], _ => by simp [insertBy]
  | q :: l, h => by
    have h' := List.pairwise_cons.1 h
    unfold insertBy; split_ifs with h1
    · refine List.pairwise_cons.2 ⟨?_, h⟩
      intro r hr
      rcases List.mem_cons.1 hr with rfl | hr
      · exact h1
      · exact le_trans h1 (h'.1 r hr)
    · refine List.pairwise_cons.2 ⟨?_, insertBy_sorted p l h'.2⟩
      intro r hr
      rcases List.mem_cons.1 ((insertBy_perm p l).mem_iff.1 hr) with rfl | hr
      · exact le_of_lt (not_le.1 h1)
      · exact h'.1 r hr

theorem sortBy_sorts : SortsByDistance dist2 sortBy := by
  intro l
  induction l with
  | nil => exact ⟨.refl _, .nil⟩
  | cons p l ih => exact ⟨(insertBy_perm p _).trans (ih.1.cons p), insertBy_sorted p _ ih.2⟩

theorem dist2_symm (a b : Nat) : dist2 a b = dist2 b a := by
  simp only [dist2, Nat.add_comm]

/-- A straight wire: an input pair, a normal pair and an output pair below each other. -/
def straight : Lyt Nat where
  cells := [10, 210, 510, 710, 1010, 1210]
  ty := fun c => if c < 500 then .input else if c < 1000 then .normal else .output
  pis := [10, 210]
  pos := [1010, 1210]

/-- A wire that bends downwards on both sides of its topmost pair. -/
def bent : Lyt Nat where
  cells := [10, 210, 508, 708, 512, 712]
  ty := fun _ => .normal
  pis := []
  pos := []

theorem straight_ok : straight.Ok := by
  refine ⟨by decide, by decide, by decide, ?_, ?_⟩ <;> intro c <;> simp only [straight, List.mem_cons,
    List.not_mem_nil, or_false] <;> constructor <;> intro h
  · rcases h with rfl | rfl <;> simp
  · obtain ⟨h, h'⟩ := h; rcases h with rfl | rfl | rfl | rfl | rfl | rfl <;> simp_all
  · rcases h with rfl | rfl <;> simp
  · obtain ⟨h, h'⟩ := h; rcases h with rfl | rfl | rfl | rfl | rfl | rfl <;> simp_all

theorem bent_ok : bent.Ok := by
  refine ⟨by decide, by decide, by decide, ?_, ?_⟩ <;> intro c <;> simp [bent]

end Example

open Example in
/-- A connected sequence of three pairs, none of which follows more than two others, is split into two wires because
the detection starts at its topmost pair, which is not one of its ends. -/
theorem C68_false_wires : ∃ (L : Lyt Nat) (ws : List (List (Pair Nat))) (p q : Pair Nat), L.Ok ∧
    SortsByDistance dist2 sortBy ∧ detectWires sortBy dist2 1 4 16 L = some ws ∧
    p ∈ detectPairs sortBy dist2 1 4 L none ∧ q ∈ detectPairs sortBy dist2 1 4 L none ∧
    Linked (fun a b => decide (dist2 a b < 16)) p q ∧ ∃ w ∈ ws, p ∈ w ∧ q ∉ w := by
  refine ⟨bent, [[⟨.normal, 10, 210⟩, ⟨.normal, 508, 708⟩], [⟨.normal, 512, 712⟩]], ⟨.normal, 10, 210⟩,
    ⟨.normal, 512, 712⟩, bent_ok, sortBy_sorts, by decide +kernel, by decide +kernel, by decide +kernel, ?_,
    _, .head _, by decide, by decide⟩
  unfold Linked; decide

open Example in
/-- Without a type, not the pairs of all types are detected: logic dots are left out. -/
theorem C68_false_all_types : ∃ (L : Lyt Nat) (p : Pair Nat), L.Ok ∧
    p ∈ detectPairs sortBy dist2 1 4 L (some .logic) ∧ detectPairs sortBy dist2 1 4 L none = [] := by
  refine ⟨⟨[10, 210], fun _ => .logic, [], []⟩, ⟨.logic, 10, 210⟩, ⟨by decide, by decide, by decide, ?_, ?_⟩,
    by decide +kernel, by decide +kernel⟩ <;> intro c <;> simp

open Example in
/-- The hypotheses of the theorems are met, and the wire of the straight layout is found in one piece. -/
example : straight.Ok ∧ SortsByDistance dist2 sortBy ∧ (∀ a b, dist2 a b = dist2 b a) ∧
    detectPairs sortBy dist2 1 4 straight (some .input) = [⟨.input, 10, 210⟩] ∧
    detectWires sortBy dist2 1 4 16 straight =
      some [[⟨.input, 10, 210⟩, ⟨.normal, 510, 710⟩, ⟨.output, 1010, 1210⟩]] ∧
    filterWires .input .output [[⟨.input, 10, 210⟩, ⟨.normal, 510, 710⟩, ⟨.output, 1010, 1210⟩]] =
      [[⟨.input, 10, 210⟩, (⟨.normal, 510, 710⟩ : Pair Nat)]] :=
  ⟨straight_ok, sortBy_sorts, dist2_symm, by decide +kernel, by decide +kernel, by decide +kernel⟩

open Example in
/-- The conditions of `C68_complete_partial` hold for the straight wire. -/
example : (∀ p ∈ detectPairs sortBy dist2 1 4 straight none, ∀ a ∈ detectPairs sortBy dist2 1 4 straight none,
      ∀ b ∈ detectPairs sortBy dist2 1 4 straight none, ∀ c ∈ detectPairs sortBy dist2 1 4 straight none,
      a ≠ p → b ≠ p → c ≠ p → Linked (fun a b => decide (dist2 a b < 16)) p a →
      Linked (fun a b => decide (dist2 a b < 16)) p b → Linked (fun a b => decide (dist2 a b < 16)) p c →
      a = b ∨ a = c ∨ b = c) ∧
    (∀ p ∈ detectPairs sortBy dist2 1 4 straight none, ∀ a ∈ detectPairs sortBy dist2 1 4 straight none,
      ∀ b ∈ detectPairs sortBy dist2 1 4 straight none, a ≠ p → b ≠ p → a ≠ b →
      Linked (fun a b => decide (dist2 a b < 16)) p a → Linked (fun a b => decide (dist2 a b < 16)) p b →
      ∃ q, Reaches (fun a b => decide (dist2 a b < 16)) (detectPairs sortBy dist2 1 4 straight none) p q ∧
        (q.upper < p.upper ∨ (q.upper = p.upper ∧ q.lower < p.lower))) := by
  have e : detectPairs sortBy dist2 1 4 straight none =
    [⟨.input, 10, 210⟩, ⟨.output, 1010, 1210⟩, ⟨.normal, 510, 710⟩] := by decide +kernel
  rw [e]
  constructor
  · intro p hp a ha b hb c hc h1 h2 h3 _ _ _
    simp only [List.mem_cons, List.not_mem_nil, or_false] at hp ha hb hc
    grind
  · intro p hp a ha b hb h1 h2 h3 h4 h5
    have key : p = ⟨.normal, 510, 710⟩ := by
      revert p a b; unfold Linked; decide +kernel
    subst key
    refine ⟨⟨.input, 10, 210⟩, .single ⟨by decide, by decide, ?_⟩, by decide⟩
    unfold Linked; decide

open Example in
/-- The conditions of `C68_unique` hold for the input dots of the straight wire. -/
example : ∀ a ∈ straight.cells.filter (fun c => straight.ty c = .input), ∀ b ∈ straight.cells.filter
    (fun c => straight.ty c = .input), ∀ c ∈ straight.cells.filter (fun c => straight.ty c = .input),
    ∀ d ∈ straight.cells.filter (fun c => straight.ty c = .input), a < b → c < d → dist2 a b = dist2 c d →
    a = c ∧ b = d := by decide +kernel

end Verif.SidbAnalysis.Bdl
