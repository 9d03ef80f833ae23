import Verif.Paths.Lemmas
import Mathlib.Tactic.SplitIfs

/-! The libstdc++ heap keeps its contents, and keeps the heap order as long as it starts with it. -/
namespace Verif.Paths

section
variable {E : Type}

theorem swapAt_get (l : List E) (i j : Nat) (hi : i < l.length) (hj : j < l.length) (k : Nat) :
    (swapAt l i j)[k]? = if k = j then l[i]? else if k = i then l[j]? else l[k]? := by
  unfold swapAt
  rw [List.getElem?_eq_getElem hi, List.getElem?_eq_getElem hj]
  simp only [List.getElem?_set, List.length_set]
  grind

theorem swapAt_perm (l : List E) (i j : Nat) : (swapAt l i j).Perm l := by
  unfold swapAt
  by_cases hi : i < l.length
  · by_cases hj : j < l.length
    · rw [List.getElem?_eq_getElem hi, List.getElem?_eq_getElem hj]
      exact List.set_set_perm hi hj
    · rw [List.getElem?_eq_none (Nat.not_lt.1 hj)]
      split <;> simp_all
  · rw [List.getElem?_eq_none (Nat.not_lt.1 hi)]

theorem swapAt_length (l : List E) (i j : Nat) : (swapAt l i j).length = l.length :=
  (swapAt_perm l i j).length_eq

variable (gt : E → E → Bool)

theorem siftUp_perm : ∀ fuel l i, (siftUp gt fuel l i).Perm l := by
  intro fuel
  induction fuel with
  | zero => intro l i; simp [siftUp]
  | succ n ih =>
    intro l i
    unfold siftUp
    split
    · exact List.Perm.refl _
    · split
      · split
        · exact (ih _ _).trans (swapAt_perm _ _ _)
        · exact List.Perm.refl _
      · exact List.Perm.refl _

theorem siftDown_perm : ∀ fuel l i, (siftDown gt fuel l i).1.Perm l := by
  intro fuel
  induction fuel with
  | zero => intro l i; simp [siftDown]
  | succ n ih =>
    intro l i
    unfold siftDown
    split
    · exact (ih _ _).trans (swapAt_perm _ _ _)
    · exact swapAt_perm _ _ _
    · exact List.Perm.refl _

theorem heapPush_perm (l : List E) (e : E) : (heapPush gt l e).Perm (e :: l) :=
  (siftUp_perm gt _ _ _).trans (List.perm_append_singleton e l)

theorem heapPop_perm (e : E) (l : List E) : (heapPop gt (e :: l)).Perm l := by
  unfold heapPop
  rcases List.eq_nil_or_concat l with rfl | ⟨l', v, rfl⟩
  · simp
  · simp only [List.concat_eq_append, List.getLast?_append, List.getLast?_singleton, Option.some_or,
      List.dropLast_concat]
    refine (siftUp_perm gt _ _ _).trans ((siftDown_perm gt _ _ _).trans ?_)
    exact (List.perm_append_singleton v l').symm

/-- The heap order of the C++ standard: no element is greater than its children. -/
def HeapOrd (l : List E) : Prop :=
  ∀ i a b, 0 < i → l[(i - 1) / 2]? = some a → l[i]? = some b → gt a b = false

/-- `gt` is the strict part of a total preorder. -/
structure Preord : Prop where
  trans : ∀ a b c, gt a b = false → gt b c = false → gt a c = false
  total : ∀ a b, gt a b = true → gt b a = false

variable {gt}

theorem Preord.refl (h : Preord gt) (a : E) : gt a a = false := by
  cases hc : gt a a with
  | false => rfl
  | true => rw [h.total a a hc] at hc; exact absurd hc (by simp)

/-- Heap order except possibly between `i` and its parent. -/
structure UpOrd (gt : E → E → Bool) (l : List E) (i : Nat) : Prop where
  other : ∀ j a b, 0 < j → j ≠ i → l[(j - 1) / 2]? = some a → l[j]? = some b → gt a b = false
  grand : ∀ j a b, 0 < i → 0 < j → (j - 1) / 2 = i → l[(i - 1) / 2]? = some a → l[j]? = some b →
    gt a b = false

theorem siftUp_ord (hg : Preord gt) : ∀ fuel l i, i < fuel → i < l.length → UpOrd gt l i →
    HeapOrd gt (siftUp gt fuel l i) := by
  intro fuel
  induction fuel with
  | zero => intro l i h; omega
  | succ n ih =>
    intro l i hf hl hu
    unfold siftUp
    split
    · rename_i h0
      subst h0
      intro j a b hj
      exact hu.other j a b hj (by omega)
    · rename_i h0
      have hp : (i - 1) / 2 < l.length := by omega
      have hpi : (i - 1) / 2 ≠ i := by omega
      rw [List.getElem?_eq_getElem hp, List.getElem?_eq_getElem hl]
      simp only
      split
      · rename_i hgt
        apply ih _ _ (by omega) (by rw [swapAt_length]; exact hp)
        have hget := swapAt_get l i ((i - 1) / 2) hl hp
        have hlt := hg.total _ _ hgt
        refine ⟨?_, ?_⟩
        · intro j a b hj hne h1 h2
          rw [hget] at h1 h2
          rw [if_neg hne] at h2
          by_cases hji : j = i
          · subst hji
            rw [if_pos rfl] at h2
            rw [if_pos rfl, List.getElem?_eq_getElem hl] at h1
            rw [List.getElem?_eq_getElem hp] at h2
            cases h1; cases h2
            exact hlt
          · rw [if_neg hji] at h2
            by_cases hjp : (j - 1) / 2 = (i - 1) / 2
            · rw [if_pos hjp, List.getElem?_eq_getElem hl] at h1
              cases h1
              have := hu.other j _ b hj hji (by rw [hjp, List.getElem?_eq_getElem hp]) h2
              exact hg.trans _ _ _ hlt this
            · rw [if_neg hjp] at h1
              by_cases hjp2 : (j - 1) / 2 = i
              · rw [if_pos hjp2, List.getElem?_eq_getElem hp] at h1
                cases h1
                exact hu.grand j _ b (by omega) hj hjp2 (List.getElem?_eq_getElem hp) h2
              · rw [if_neg hjp2] at h1
                exact hu.other j a b hj hji h1 h2
        · intro j a b hi0 hj hjp h1 h2
          rw [hget] at h1 h2
          rw [if_neg (by omega), if_neg (by omega)] at h1
          rw [if_neg (by omega)] at h2
          have hpp := hu.other ((i - 1) / 2) a _ hi0 hpi h1 (List.getElem?_eq_getElem hp)
          by_cases hji : j = i
          · rw [if_pos hji, List.getElem?_eq_getElem hp] at h2
            cases h2
            exact hpp
          · rw [if_neg hji] at h2
            exact hg.trans _ _ _ hpp
              (hu.other j _ b hj hji (by rw [hjp, List.getElem?_eq_getElem hp]) h2)
      · rename_i hgt
        intro j a b hj h1 h2
        by_cases hji : j = i
        · subst hji
          rw [List.getElem?_eq_getElem hp] at h1
          rw [List.getElem?_eq_getElem hl] at h2
          cases h1; cases h2
          simpa using hgt
        · exact hu.other j a b hj hji h1 h2

theorem heapPush_ord (hg : Preord gt) (l : List E) (e : E) (h : HeapOrd gt l) :
    HeapOrd gt (heapPush gt l e) := by
  refine siftUp_ord hg _ _ _ (by omega) (by simp) ⟨?_, ?_⟩
  · intro j a b hj hne h1 h2
    have hj2 : j < (l ++ [e]).length := by
      by_contra hc
      rw [List.getElem?_eq_none (by omega)] at h2; simp at h2
    simp at hj2
    rw [List.getElem?_append_left (by omega)] at h1 h2
    exact h j a b hj h1 h2
  · intro j a b _ hj hjp _ h2
    have hj2 : j < (l ++ [e]).length := by
      by_contra hc
      rw [List.getElem?_eq_none (by omega)] at h2; simp at h2
    simp at hj2
    omega

/-- Heap order except around the hole `i`. -/
structure DownOrd (gt : E → E → Bool) (l : List E) (i : Nat) : Prop where
  other : ∀ j a b, 0 < j → j ≠ i → (j - 1) / 2 ≠ i → l[(j - 1) / 2]? = some a → l[j]? = some b →
    gt a b = false
  grand : ∀ j a b, 0 < i → 0 < j → (j - 1) / 2 = i → l[(i - 1) / 2]? = some a → l[j]? = some b →
    gt a b = false

/-- One step of sinking: `c` is a child of `i` not greater than its sibling. -/
theorem down_step (hg : Preord gt) (l : List E) (i c : Nat) (hc : c < l.length) (hci : (c - 1) / 2 = i)
    (hc0 : 0 < c) (h : DownOrd gt l i)
    (hmin : ∀ j a b, 0 < j → (j - 1) / 2 = i → l[c]? = some a → l[j]? = some b → gt a b = false) :
    DownOrd gt (swapAt l i c) c := by
  have hi : i < l.length := by omega
  have hget := swapAt_get l i c hi hc
  refine ⟨?_, ?_⟩
  · intro j a b hj hjc hjp h1 h2
    rw [hget] at h1 h2
    rw [if_neg hjp] at h1
    rw [if_neg hjc] at h2
    by_cases hji : j = i
    · rw [if_pos hji] at h2
      rw [if_neg (by omega)] at h1
      subst hji
      exact h.grand c a b hj hc0 hci h1 h2
    · rw [if_neg hji] at h2
      by_cases hpi : (j - 1) / 2 = i
      · rw [if_pos hpi] at h1
        exact hmin j a b hj hpi h1 h2
      · rw [if_neg hpi] at h1
        exact h.other j a b hj hji hpi h1 h2
  · intro j a b _ hj hjp h1 h2
    rw [hget] at h1 h2
    rw [if_neg (by omega), if_pos hci] at h1
    rw [if_neg (by omega), if_neg (by omega)] at h2
    exact h.other j a b hj (by omega) (by omega) (by rw [hjp]; exact h1) h2

theorem siftDown_ord (hg : Preord gt) : ∀ fuel l i, l.length ≤ fuel + i → i < l.length → DownOrd gt l i →
    UpOrd gt (siftDown gt fuel l i).1 (siftDown gt fuel l i).2 ∧
      (siftDown gt fuel l i).2 < l.length := by
  intro fuel
  induction fuel with
  | zero => intro l i h1 h2; omega
  | succ n ih =>
    intro l i hf hl hd
    unfold siftDown
    by_cases h2 : 2 * i + 2 < l.length
    · have h1 : 2 * i + 1 < l.length := by omega
      rw [List.getElem?_eq_getElem h1, List.getElem?_eq_getElem h2]
      simp only
      have key : ∀ c, c = 2 * i + 1 ∨ c = 2 * i + 2 →
          (∀ j a b, 0 < j → (j - 1) / 2 = i → l[c]? = some a → l[j]? = some b → gt a b = false) →
          UpOrd gt (siftDown gt n (swapAt l i c) c).1 (siftDown gt n (swapAt l i c) c).2 ∧
          (siftDown gt n (swapAt l i c) c).2 < l.length := by
        intro c hc hmin
        have := ih (swapAt l i c) c (by rw [swapAt_length]; omega) (by rw [swapAt_length]; omega)
          (down_step hg l i c (by omega) (by omega) (by omega) hd hmin)
        rw [swapAt_length] at this
        exact this
      split
      · rename_i hgt
        refine key _ (Or.inl rfl) ?_
        intro j a b hj hjp ha hb
        rw [List.getElem?_eq_getElem h1] at ha
        cases ha
        have : j = 2 * i + 1 ∨ j = 2 * i + 2 := by omega
        rcases this with rfl | rfl
        · rw [List.getElem?_eq_getElem h1] at hb; cases hb; exact hg.refl _
        · rw [List.getElem?_eq_getElem h2] at hb; cases hb; exact hg.total _ _ hgt
      · rename_i hgt
        refine key _ (Or.inr rfl) ?_
        intro j a b hj hjp ha hb
        rw [List.getElem?_eq_getElem h2] at ha
        cases ha
        have : j = 2 * i + 1 ∨ j = 2 * i + 2 := by omega
        rcases this with rfl | rfl
        · rw [List.getElem?_eq_getElem h1] at hb; cases hb; simpa using hgt
        · rw [List.getElem?_eq_getElem h2] at hb; cases hb; exact hg.refl _
    · by_cases h1 : 2 * i + 1 < l.length
      · rw [List.getElem?_eq_getElem h1, List.getElem?_eq_none (by omega)]
        simp only
        have hd' := down_step hg l i (2 * i + 1) h1 (by omega) (by omega) hd (by
          intro j a b hj hjp ha hb
          have hj2 : j < l.length := by
            by_contra hc
            rw [List.getElem?_eq_none (by omega)] at hb; simp at hb
          have : j = 2 * i + 1 := by omega
          subst this
          rw [ha] at hb; cases hb; exact hg.refl _)
        refine ⟨⟨?_, hd'.grand⟩, h1⟩
        intro j a b hj hne ha hb
        have hj2 : j < (swapAt l i (2 * i + 1)).length := by
          by_contra hc
          rw [List.getElem?_eq_none (by omega)] at hb; simp at hb
        rw [swapAt_length] at hj2
        exact hd'.other j a b hj hne (by omega) ha hb
      · rw [List.getElem?_eq_none (by omega : l.length ≤ 2 * i + 1)]
        refine ⟨⟨?_, hd.grand⟩, hl⟩
        intro j a b hj hne ha hb
        have hj2 : j < l.length := by
          by_contra hc
          simp only at hb
          rw [List.getElem?_eq_none (by omega)] at hb; simp at hb
        exact hd.other j a b hj hne (by omega) ha hb

theorem heapPop_ord (hg : Preord gt) (l : List E) (h : HeapOrd gt l) : HeapOrd gt (heapPop gt l) := by
  cases l with
  | nil => intro i a b _ h1; simp [heapPop] at h1
  | cons e rest =>
    unfold heapPop
    rcases List.eq_nil_or_concat rest with rfl | ⟨l', v, rfl⟩
    · intro i a b _ h1; simp at h1
    · simp only [List.concat_eq_append, List.getLast?_append, List.getLast?_singleton, Option.some_or,
        List.dropLast_concat]
      have hd : DownOrd gt (v :: l') 0 := by
        refine ⟨?_, fun j a b h0 => absurd h0 (by omega)⟩
        intro j a b hj _ hp h1 h2
        have hj2 : j < (v :: l').length := by
          by_contra hc
          rw [List.getElem?_eq_none (by omega)] at h2; simp at h2
        simp only [List.length_cons] at hj2
        have e1 : (v :: l')[(j - 1) / 2]? = (e :: (l' ++ [v]))[(j - 1) / 2]? := by
          obtain ⟨k, hk⟩ : ∃ k, (j - 1) / 2 = k + 1 := ⟨(j - 1) / 2 - 1, by omega⟩
          rw [hk, List.getElem?_cons_succ, List.getElem?_cons_succ, List.getElem?_append_left (by omega)]
        have e2 : (v :: l')[j]? = (e :: (l' ++ [v]))[j]? := by
          obtain ⟨k, hk⟩ : ∃ k, j = k + 1 := ⟨j - 1, by omega⟩
          rw [hk, List.getElem?_cons_succ, List.getElem?_cons_succ, List.getElem?_append_left (by omega)]
        rw [e1] at h1; rw [e2] at h2
        refine h j a b hj ?_ ?_
        · simpa using h1
        · simpa using h2
      have hs := siftDown_ord hg ((l' ++ [v]).length + 1) (v :: l') 0 (by simp) (by simp) hd
      have hlen := (siftDown_perm gt ((l' ++ [v]).length + 1) (v :: l') 0).length_eq
      refine siftUp_ord hg _ _ _ ?_ (by rw [hlen]; exact hs.2) hs.1
      have := hs.2
      simp at this ⊢
      omega

/-- The front of a heap is minimal. -/
theorem heap_front (hg : Preord gt) (e : E) (l : List E) (h : HeapOrd gt (e :: l)) :
    ∀ x ∈ e :: l, gt e x = false := by
  have key : ∀ (n i : Nat) (x : E), i ≤ n → (e :: l)[i]? = some x → gt e x = false := by
    intro n
    induction n with
    | zero =>
      intro i x hi hx
      have : i = 0 := by omega
      subst this
      simp at hx; subst hx; exact hg.refl _
    | succ n ih =>
      intro i x hi hx
      by_cases h0 : i = 0
      · subst h0; simp at hx; subst hx; exact hg.refl _
      · have hlt : i < (e :: l).length := by
          by_contra hc
          rw [List.getElem?_eq_none (by omega)] at hx; simp at hx
        have hp : (i - 1) / 2 < (e :: l).length := by omega
        have h1 := ih ((i - 1) / 2) _ (by omega) (List.getElem?_eq_getElem hp)
        exact hg.trans _ _ _ h1 (h i _ x (by omega) (List.getElem?_eq_getElem hp) hx)
  intro x hx
  obtain ⟨i, hi⟩ := List.mem_iff_getElem?.1 hx
  exact key i i x (le_refl _) hi

end

section
variable {V K : Type} [DecidableEq V] [LinearOrder K]

theorem stdQueue_preord : Preord (fun a b : V × K => decide (a.2 > b.2)) :=
  ⟨fun a b c => by simp only [gt_iff_lt, decide_eq_false_iff_not, not_lt]; exact le_trans,
   fun a b => by simp only [gt_iff_lt, decide_eq_true_eq, decide_eq_false_iff_not, not_lt]; exact le_of_lt⟩

theorem stdQueue_faithful : (stdQueue V K).Faithful :=
  ⟨fun l e => heapPush_perm _ l e, fun e l => heapPop_perm _ e l, fun _ _ _ => List.Perm.refl _⟩

end

end Verif.Paths
