import Verif.Iter.Model

/-! # C48: the BDL input iterator -/
namespace Verif.Iter

variable {C : Type} [DecidableEq C]

/-- All dots of all input pairs are distinct cells. -/
def PairsDisjoint (pairs : List (BdlPair C)) : Prop :=
  (∀ p ∈ pairs, p.upper ≠ p.lower) ∧
  ∀ i j (hi : i < pairs.length) (hj : j < pairs.length), i ≠ j →
    pairs[i].upper ≠ pairs[j].upper ∧ pairs[i].upper ≠ pairs[j].lower ∧
    pairs[i].lower ≠ pairs[j].upper ∧ pairs[i].lower ≠ pairs[j].lower

/-- The documented encoding of one input. The dot nearer to the wire carries a perturber for logic `1`; for logic `0`
the other dot does, or none in the absence encoding. -/
structure Encodes (config : InputConfig) (l : C → CellType) (near far : C) (bit : Bool) : Prop where
  near_dot : l near = if bit then .input else .empty
  far_dot : l far = if bit then .empty else if config = .perturberDistanceEncoded then .input else .empty

def near (p : BdlPair C) (closer : Bool) : C := if closer then p.upper else p.lower
def far (p : BdlPair C) (closer : Bool) : C := if closer then p.lower else p.upper

theorem and_bit (x : BitVec 64) (k : Nat) (hk : k < 64) : (x &&& ((1 : BitVec 64) <<< k) ≠ 0) ↔ x.getLsbD k = true := by
  constructor
  · intro h
    by_contra hc
    apply h
    apply BitVec.eq_of_getLsbD_eq
    intro j hj
    rw [BitVec.getLsbD_and, BitVec.getLsbD_shiftLeft]
    by_cases e : j = k
    · subst e; simp at hc; simp [hc]
    · by_cases e2 : j < k
      · simp [e2]
      · have : (1 : BitVec 64).getLsbD (j - k) = false := by
          rw [show (1 : BitVec 64) = 1#64 from rfl, BitVec.getLsbD_one]
          simp; omega
        rw [this]; simp
  · intro h hc
    have := congrArg (fun v => v.getLsbD k) hc
    simp only [BitVec.getLsbD_and, BitVec.getLsbD_shiftLeft] at this
    rw [h] at this
    simp [hk] at this

theorem setInput_off {n : Nat} {config : InputConfig} {index : BitVec 64} {i : Nat} {p : BdlPair C} {b : Bool}
    {l : C → CellType} {c : C} (h1 : c ≠ p.upper) (h2 : c ≠ p.lower) : setInput n config index i p b l c = l c := by
  unfold setInput assignCell
  split <;> split <;> (try split) <;> simp [h1, h2]

theorem setInput_on {n : Nat} {config : InputConfig} {index : BitVec 64} {i : Nat} {p : BdlPair C} {b : Bool}
    {l : C → CellType} (hne : p.upper ≠ p.lower) (hi : i < n) (hn : n ≤ 64) :
    Encodes config (setInput n config index i p b l) (near p b) (far p b) (index.getLsbD (n - 1 - i)) := by
  have hb := and_bit index (n - 1 - i) (by omega)
  have hne' := hne.symm
  unfold setInput
  by_cases h : index &&& ((1 : BitVec 64) <<< (n - 1 - i)) ≠ 0
  · rw [if_pos h, hb.1 h]
    cases b <;> constructor <;> simp [near, far, assignCell, hne, hne']
  · have h' : index.getLsbD (n - 1 - i) = false := by
      cases hc : index.getLsbD (n - 1 - i) with
      | false => rfl
      | true => exact absurd (hb.2 hc) h
    rw [if_neg h, h']
    cases b <;> by_cases hcfg : config = .perturberDistanceEncoded <;> constructor <;>
      simp [near, far, assignCell, hne, hne', hcfg]

theorem setInputsBelow_spec (s : BdlIt C) (hd : PairsDisjoint s.pairs) (hc : s.closer.length = s.pairs.length)
    (hn : s.pairs.length ≤ 64) : ∀ k, k ≤ s.pairs.length → ∀ l,
    (∀ i (hi : i < s.pairs.length), i < k → Encodes s.config (setInputsBelow s k l) (near s.pairs[i] (s.closer[i]))
        (far s.pairs[i] (s.closer[i])) (s.index.getLsbD (s.pairs.length - 1 - i))) ∧
    (∀ c, (∀ i (hi : i < s.pairs.length), i < k → c ≠ s.pairs[i].upper ∧ c ≠ s.pairs[i].lower) →
        setInputsBelow s k l c = l c) := by
  intro k
  induction k with
  | zero => intro _ l; exact ⟨fun i _ h => absurd h (by omega), fun c _ => rfl⟩
  | succ k ih =>
    intro hk l
    have hk' : k < s.pairs.length := by omega
    have e1 : s.pairs[k]? = some s.pairs[k] := List.getElem?_eq_getElem hk'
    have e2 : s.closer[k]? = some (s.closer[k]'(by omega)) := List.getElem?_eq_getElem (by omega)
    obtain ⟨ih1, ih2⟩ := ih (by omega)
      (setInput s.pairs.length s.config s.index k s.pairs[k] (s.closer[k]'(by omega)) l)
    have hunf : setInputsBelow s (k + 1) l = setInputsBelow s k
        (setInput s.pairs.length s.config s.index k s.pairs[k] (s.closer[k]'(by omega)) l) := by
      simp only [setInputsBelow, e1, e2]
    rw [hunf]
    constructor
    · intro i hi hik
      by_cases e : i = k
      · subst e
        have hon := setInput_on (n := s.pairs.length) (config := s.config) (index := s.index) (i := i)
          (p := s.pairs[i]) (b := s.closer[i]'(by omega)) (l := l) (hd.1 _ (List.getElem_mem hi)) hi hn
        have hup := ih2 s.pairs[i].upper (fun j hj hji => ⟨(hd.2 i j hi hj (by omega)).1, (hd.2 i j hi hj (by omega)).2.1⟩)
        have hlo := ih2 s.pairs[i].lower (fun j hj hji =>
          ⟨(hd.2 i j hi hj (by omega)).2.2.1, (hd.2 i j hi hj (by omega)).2.2.2⟩)
        constructor
        · rw [← hon.near_dot]; unfold near; split <;> assumption
        · rw [← hon.far_dot]; unfold far; split <;> assumption
      · exact ih1 i hi (by omega)
    · intro c hcc
      have := hcc k hk' (by omega)
      rw [ih2 c (fun i hi hik => hcc i hi (by omega)), setInput_off this.1 this.2]

/-- Net index after a history of operators. -/
def netIndex (start : BitVec 64) (ops : List GrayOp) : BitVec 64 :=
  ops.foldl (fun p op => match op with
    | .inc => p + 1
    | .dec => p - 1
    | .add m => p + BitVec.ofInt 64 m
    | .sub m => p - BitVec.ofInt 64 m
    | .assign m => m) start

theorem step_fields (s : BdlIt C) (op : GrayOp) : (s.step op).pairs = s.pairs ∧ (s.step op).closer = s.closer ∧
    (s.step op).config = s.config ∧ (s.step op).index = netIndex s.index [op] := by cases op <;> exact ⟨rfl, rfl, rfl, rfl⟩

theorem step_layout (s : BdlIt C) (op : GrayOp) : ∃ s' : BdlIt C, s.step op = setAllInputs s' ∧ s'.pairs = s.pairs ∧
    s'.closer = s.closer ∧ s'.config = s.config ∧ s'.layout = s.layout ∧ s'.index = netIndex s.index [op] := by
  cases op <;> exact ⟨_, rfl, rfl, rfl, rfl, rfl, rfl⟩

/-- **C48** (closed form, history independence): after every sequence of `++ -- += -= =` on a freshly constructed
iterator, input pair `i` encodes bit `n-1-i` of the net index (the first pair is the most significant bit), and every
cell that is not an input dot is as in the layout passed to the constructor. -/
theorem C48_closed_form (pairs : List (BdlPair C)) (closer : List Bool) (config : InputConfig) (l : C → CellType)
    (hd : PairsDisjoint pairs) (hc : closer.length = pairs.length) (hn : pairs.length ≤ 64) (ops : List GrayOp) :
    let s := (BdlIt.mk' pairs closer config l).run ops
    s.index = netIndex 0 ops ∧
    (∀ i (hi : i < pairs.length), Encodes config s.layout (near pairs[i] closer[i]) (far pairs[i] closer[i])
      ((netIndex 0 ops).getLsbD (pairs.length - 1 - i))) ∧
    (∀ c, (∀ p ∈ pairs, c ≠ p.upper ∧ c ≠ p.lower) → s.layout c = l c) := by
  have base : ∀ s : BdlIt C, s.pairs = pairs → s.closer = closer → s.config = config →
      (∀ i (hi : i < pairs.length), Encodes config (setAllInputs s).layout (near pairs[i] closer[i])
        (far pairs[i] closer[i]) (s.index.getLsbD (pairs.length - 1 - i))) ∧
      (∀ c, (∀ p ∈ pairs, c ≠ p.upper ∧ c ≠ p.lower) → (setAllInputs s).layout c = s.layout c) := by
    rintro s rfl rfl rfl
    obtain ⟨h1, h2⟩ := setInputsBelow_spec s hd hc hn s.pairs.length (Nat.le_refl _) s.layout
    exact ⟨fun i hi => h1 i hi hi, fun c h => h2 c fun i hi _ => h _ (List.getElem_mem hi)⟩
  have key : ∀ (ops : List GrayOp) (s : BdlIt C), s.pairs = pairs → s.closer = closer → s.config = config →
      (∀ i (hi : i < pairs.length), Encodes config s.layout (near pairs[i] closer[i]) (far pairs[i] closer[i])
        (s.index.getLsbD (pairs.length - 1 - i))) →
      (∀ c, (∀ p ∈ pairs, c ≠ p.upper ∧ c ≠ p.lower) → s.layout c = l c) →
      (s.run ops).index = netIndex s.index ops ∧
      (∀ i (hi : i < pairs.length), Encodes config (s.run ops).layout (near pairs[i] closer[i]) (far pairs[i] closer[i])
        ((netIndex s.index ops).getLsbD (pairs.length - 1 - i))) ∧
      (∀ c, (∀ p ∈ pairs, c ≠ p.upper ∧ c ≠ p.lower) → (s.run ops).layout c = l c) := by
    intro ops
    induction ops with
    | nil => intro s _ _ _ h1 h2; exact ⟨rfl, h1, h2⟩
    | cons op ops ih =>
      intro s hp hcl hcf h1 h2
      obtain ⟨f1, f2, f3, f4⟩ := step_fields s op
      obtain ⟨s', e, g1, g2, g3, g4, g5⟩ := step_layout s op
      obtain ⟨b1, b2⟩ := base s' (g1.trans hp) (g2.trans hcl) (g3.trans hcf)
      have := ih (s.step op) (f1.trans hp) (f2.trans hcl) (f3.trans hcf)
        (fun i hi => by rw [f4, e, ← g5]; exact b1 i hi)
        (fun c hcc => by rw [e, b2 c hcc, g4]; exact h2 c hcc)
      rw [f4] at this
      exact this
  obtain ⟨b1, b2⟩ := base ⟨pairs, closer, config, l, 0⟩ rfl rfl rfl
  exact key ops (BdlIt.mk' pairs closer config l) rfl rfl rfl b1 b2

/-- **C48** (wrap-around and history independence as an equation): two histories whose net indices agree on the low `n`
bits leave identical layouts, so the enumeration has period `2^n`. -/
theorem C48_history_independent (pairs : List (BdlPair C)) (closer : List Bool) (config : InputConfig)
    (l : C → CellType) (hd : PairsDisjoint pairs) (hc : closer.length = pairs.length) (hn : pairs.length ≤ 64)
    (o p : List GrayOp) (h : ∀ k, k < pairs.length → (netIndex 0 o).getLsbD k = (netIndex 0 p).getLsbD k) :
    ((BdlIt.mk' pairs closer config l).run o).layout = ((BdlIt.mk' pairs closer config l).run p).layout := by
  obtain ⟨_, a1, a2⟩ := C48_closed_form pairs closer config l hd hc hn o
  obtain ⟨_, b1, b2⟩ := C48_closed_form pairs closer config l hd hc hn p
  funext c
  by_cases hcc : ∀ q ∈ pairs, c ≠ q.upper ∧ c ≠ q.lower
  · rw [a2 c hcc, b2 c hcc]
  · have hcc : ∃ q ∈ pairs, c = q.upper ∨ c = q.lower := by
      apply Classical.byContradiction
      intro hne
      apply hcc
      intro q hq
      exact ⟨fun e => hne ⟨q, hq, Or.inl e⟩, fun e => hne ⟨q, hq, Or.inr e⟩⟩
    obtain ⟨q, hq, hqc⟩ := hcc
    obtain ⟨i, hi, rfl⟩ := List.getElem_of_mem hq
    have e1 := a1 i hi
    have e2 := b1 i hi
    rw [← h _ (by omega)] at e2
    have hnear := e1.near_dot.trans e2.near_dot.symm
    have hfar := e1.far_dot.trans e2.far_dot.symm
    unfold near at hnear
    unfold far at hfar
    rcases hqc with rfl | rfl <;> cases hb : closer[i] <;> simp [hb] at hnear hfar <;> assumption

/-- **C48** (all patterns): `collect_bdl_input_pattern_layouts` returns `2^n` layouts and the `m`-th encodes `m`. -/
theorem C48_collect (pairs : List (BdlPair C)) (closer : List Bool) (config : InputConfig) (l : C → CellType)
    (hd : PairsDisjoint pairs) (hc : closer.length = pairs.length) (hn : pairs.length < 64) :
    let ls := collectLayouts (BdlIt.mk' pairs closer config l)
    ls.length = 2 ^ pairs.length ∧
    ∀ m (hm : m < ls.length), ∀ i (hi : i < pairs.length),
      Encodes config ls[m] (near pairs[i] closer[i]) (far pairs[i] closer[i])
        (m.testBit (pairs.length - 1 - i)) := by
  have len : ∀ (k : Nat) (s : BdlIt C), (collectFrom s k).length = k := by
    intro k; induction k with
    | zero => intro s; rfl
    | succ k ih => intro s; simp [collectFrom, ih]
  have get : ∀ (k : Nat) (s : BdlIt C) (m : Nat) (hm : m < (collectFrom s k).length),
      (collectFrom s k)[m] = (s.run (List.replicate m .inc)).layout := by
    intro k; induction k with
    | zero => intro s m hm; simp [collectFrom] at hm
    | succ k ih =>
      intro s m hm
      cases m with
      | zero => rfl
      | succ m =>
        simp only [collectFrom, List.getElem_cons_succ]
        rw [ih]
        rfl
  have idx : ∀ (m : Nat) (b : BitVec 64), netIndex b (List.replicate m .inc) = b + BitVec.ofNat 64 m := by
    intro m
    induction m with
    | zero => intro b; simp [netIndex]
    | succ m ih =>
      intro b
      rw [List.replicate_succ, show netIndex b (.inc :: List.replicate m .inc) =
        netIndex (b + 1) (List.replicate m .inc) from rfl, ih, BitVec.add_assoc]
      congr 1
      apply BitVec.eq_of_toNat_eq
      simp [BitVec.toNat_add, Nat.add_comm]
  intro ls
  refine ⟨len _ _, fun m hm i hi => ?_⟩
  have hm' : m < 2 ^ pairs.length := by rw [← len (2 ^ pairs.length)]; exact hm
  have h64 : 2 ^ pairs.length < 2 ^ 64 := Nat.pow_lt_pow_right (by omega) hn
  have h := (C48_closed_form pairs closer config l hd hc (by omega)
    (.assign 0 :: List.replicate m .inc)).2.1 i hi
  rw [show netIndex 0 (.assign 0 :: List.replicate m .inc) = netIndex 0 (List.replicate m .inc) from rfl, idx] at h
  have hb : (0 + BitVec.ofNat 64 m : BitVec 64).getLsbD (pairs.length - 1 - i) = m.testBit (pairs.length - 1 - i) := by
    rw [show (0 + BitVec.ofNat 64 m : BitVec 64) = BitVec.ofNat 64 m from BitVec.zero_add _]
    simp only [BitVec.getLsbD, BitVec.toNat_ofNat]
    rw [Nat.mod_eq_of_lt (by omega)]
  rw [hb] at h
  have e : ls[m] = ((BdlIt.mk' pairs closer config l).run (.assign 0 :: List.replicate m .inc)).layout := get _ _ m hm
  rw [e]
  exact h

/-! Non-vacuity: two disjoint pairs of cells, one nearer above and one nearer below. -/
example : PairsDisjoint [⟨0, 1⟩, (⟨2, 3⟩ : BdlPair Nat)] := by
  refine ⟨by decide, ?_⟩
  intro i j hi hj hij
  simp at hi hj
  obtain ⟨rfl, rfl⟩ | ⟨rfl, rfl⟩ : (i = 0 ∧ j = 1) ∨ (i = 1 ∧ j = 0) := by omega
  · simp
  · simp

example : (List.range 4).map ((BdlIt.mk' [⟨0, 1⟩, (⟨2, 3⟩ : BdlPair Nat)] [true, false] .perturberDistanceEncoded
    (fun _ => .normal)).run [.inc, .inc]).layout = [.input, .empty, .input, .empty] := by decide

end Verif.Iter
