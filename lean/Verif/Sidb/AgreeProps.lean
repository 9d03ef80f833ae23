import Verif.Sidb.ClusterCompleteProps
import Verif.Sidb.ExgsProps
import Verif.Sidb.QuickProps

/-!
# The exact simulators agree (C97)

## Specification

`Clear` says that the potential at a SiDB is not exactly at an end of the error margin around a transition level, where the
simulators decide differently (`C91_false_strict`).
-/
namespace Verif.Sidb.Gss

/-- The potential at SiDB `i` is not an end of the error margin of a transition level. -/
def Clear (E : Env) (c : Nat → Charge) (i : Nat) : Prop :=
  let v := -potential E c i
  v ≠ E.ext i - E.muMinus - E.eps ∧ v ≠ E.ext i - E.muMinus + E.eps ∧
  v ≠ E.ext i - E.muPlus - E.eps ∧ v ≠ E.ext i - E.muPlus + E.eps

theorem valid_of_metastable {E : Env} {c : Nat → Charge} (hc : ∀ i < E.n, Clear E c i) (h : Metastable E c) : Valid E c := by
  refine ⟨fun i hi => ?_, h.2⟩
  have h1 := h.1 i hi
  obtain ⟨c1, c2, c3, c4⟩ := hc i hi
  refine ⟨fun e => ?_, fun e => ?_, fun e => ?_⟩ <;> rw [e] at h1 <;> simp only [Suits] at h1
  · exact lt_of_le_of_ne (by linarith) c2
  · exact ⟨lt_of_le_of_ne (by linarith [h1.1]) c1.symm, lt_of_le_of_ne (by linarith [h1.2]) c4⟩
  · exact lt_of_le_of_ne (by linarith) c3.symm

/-! ## Theorems -/

/-- C97. ClusterComplete returns the charge distributions of the exhaustive simulation, each once, and is defined if there is
any; in base three for a witness partitioning limit of zero. -/
theorem C97_exhaustive_partial (E : Env) (P : Params) (top : Cluster) (hs : Setting E P top)
    (hin : ∀ i, Cluster.one i ∉ top.strict) (hlim : P.base = 2 ∨ P.sizeLimit = 0 ∨ P.overlapLimit = 0) (hn : 0 < E.n)
    (hclear : ∀ l : List Charge, ∀ i < E.n, Clear E (ofList l) i) :
    ∃ r', exgs E P.base = some r' ∧ r'.Nodup ∧ (r' ≠ [] → ∃ r, clusterComplete E P top = some r) ∧
      ∀ r, clusterComplete E P top = some r → r.Nodup ∧ ∀ l, l ∈ r ↔ l ∈ r' := by
  obtain ⟨r', e, hnd, hm⟩ := C36_exact E P.base hs.base hn
  have key : ∀ l ∈ r', ∃ r, clusterComplete E P top = some r ∧ l ∈ r := by
    intro l hl
    obtain ⟨h1, h2, h3⟩ := (hm l).1 hl
    refine C91_complete_partial E P top hs hin l h1 h2 (metastable_of_valid h3) ?_
    rcases hlim with hb | hb
    · refine Or.inl fun hp => ?_
      have := h2 _ hp
      rw [hb] at this
      simp [Admissible] at this
    · exact Or.inr hb
  refine ⟨r', e, hnd, fun hne => ?_, fun r hr => ⟨C91_distinct E P top hs hin r hr, fun l => ⟨fun hl => ?_, fun hl => ?_⟩⟩⟩
  · obtain ⟨l, hl⟩ := List.exists_mem_of_ne_nil _ hne
    obtain ⟨r, hr, -⟩ := key l hl
    exact ⟨r, hr⟩
  · obtain ⟨h1, h2, h3⟩ := C91_sound E P top hs hin r hr l hl
    exact (hm l).2 ⟨h1, h2, valid_of_metastable (hclear l) h3⟩
  · obtain ⟨r2, h2, h3⟩ := key l hl
    rw [hr] at h2
    obtain rfl := Option.some.inj h2
    exact h3

/-- C97. In base two, away from the error margins, QuickExact, the exhaustive simulation and ClusterComplete return the same
charge distributions, if there are any. -/
theorem C97_three_simulators (E : Env) (P : Params) (top : Cluster) (hs : Setting E P top)
    (hin : ∀ i, Cluster.one i ∉ top.strict) (hb : P.base = 2) (hn : 1 < E.n) (hext : UniformExt E) (auto : Bool) (base : Nat)
    (h2 : TwoState E auto base) (hoff : ∀ c : Nat → Charge, ∀ i < E.n, OffMargin E c i)
    (hclear : ∀ l : List Charge, ∀ i < E.n, Clear E (ofList l) i) (hex : exgs E 2 ≠ some []) :
    ∃ r1 r2 r3, quickexactTwo E auto base = some r1 ∧ exgs E 2 = some r2 ∧ clusterComplete E P top = some r3 ∧
      r1.Perm r2 ∧ r3.Perm r2 := by
  obtain ⟨r1, r2, e1, e2, n1, n2, m1⟩ := C39_agrees E hs.phys hn hext auto base h2 hoff
  obtain ⟨r2', e2', -, hd, hc⟩ := C97_exhaustive_partial E P top hs hin (Or.inl hb) (by omega) hclear
  rw [hb, e2] at e2'
  obtain rfl := Option.some.inj e2'
  obtain ⟨r3, e3⟩ := hd (fun h => hex (by rw [e2, h]))
  obtain ⟨n3, m3⟩ := hc r3 e3
  exact ⟨r1, r2, r3, e1, e2, e3, (List.perm_ext_iff_of_nodup n1 n2).2 m1, (List.perm_ext_iff_of_nodup n3 n2).2 m3⟩

/-! ## An example -/

/-- The two SiDBs of `pairEnv` meet all hypotheses. -/
theorem pair_clear (c : Nat → Charge) : ∀ i < pairEnv.n, OffMargin pairEnv c i ∧ Clear pairEnv c i := by
  have key : ∀ l ∈ [[Charge.neg, .neg], [.neg, .neu], [.neg, .pos], [.neu, .neg], [.neu, .neu], [.neu, .pos], [.pos, .neg],
      [.pos, .neu], [.pos, .pos]], ∀ i < pairEnv.n, OffMargin pairEnv (ofList l) i ∧ Clear pairEnv (ofList l) i := by
    unfold OffMargin Clear
    decide +kernel
  have hl : ∀ a b : Charge, [a, b] ∈ [[Charge.neg, .neg], [.neg, .neu], [.neg, .pos], [.neu, .neg], [.neu, .neu], [.neu, .pos],
      [.pos, .neg], [.pos, .neu], [.pos, .pos]] := by
    intro a b; cases a <;> cases b <;> simp
  intro i hi
  have h := key [c 0, c 1] (hl _ _) i hi
  have e : potential pairEnv (ofList [c 0, c 1]) i = potential pairEnv c i := by
    refine potential_congr pairEnv (fun j hj => ?_) i
    have hj : j < 2 := hj
    match j, hj with
    | 0, _ => rfl
    | 1, _ => rfl
  unfold OffMargin Clear at *
  rw [e] at h
  exact h

example : ∃ r1 r2 r3, quickexactTwo pairEnv true 3 = some r1 ∧ exgs pairEnv 2 = some r2 ∧
    clusterComplete pairEnv (defaults 2) pairTop = some r3 ∧ r1.Perm r2 ∧ r3.Perm r2 :=
  C97_three_simulators pairEnv (defaults 2) pairTop (pair_setting 2 (Or.inl rfl))
    (by intro i; simp [pairTop, Cluster.strict, Cluster.children, Cluster.subs]) rfl (by decide) (fun _ _ _ _ => rfl) true 3
    (Or.inl ⟨rfl, by decide +kernel⟩) (fun c i hi => (pair_clear c i hi).1) (fun l i hi => (pair_clear _ i hi).2)
    (by decide +kernel)

end Verif.Sidb.Gss
