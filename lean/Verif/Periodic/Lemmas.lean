import Verif.Particles.Lemmas
import Mathlib.Tactic.LinearCombination

/-! # Lemmas on periodic boundary conditions -/

namespace Colloids
namespace Periodic
variable {G : Type} [Field G] [LinearOrder G] [IsStrictOrderedRing G]

omit [IsStrictOrderedRing G] in
theorem wrap1_cases (L v : G) :
    (v > L / 2 ∧ v - L ≤ -L / 2 ∧ wrap1 L v = v - L + L) ∨ (v > L / 2 ∧ ¬ v - L ≤ -L / 2 ∧ wrap1 L v = v - L) ∨
    (¬ v > L / 2 ∧ v ≤ -L / 2 ∧ wrap1 L v = v + L) ∨ (¬ v > L / 2 ∧ ¬ v ≤ -L / 2 ∧ wrap1 L v = v) := by
  unfold wrap1
  by_cases h1 : v > L / 2
  · by_cases h2 : v - L ≤ -L / 2
    · simp [h1, h2]
    · simp only [if_pos h1, if_neg h2]; simp [h1, h2]
  · by_cases h2 : v ≤ -L / 2
    · simp only [if_neg h1, if_pos h2]; simp [h1, h2]
    · simp only [if_neg h1, if_neg h2]; simp [h1, h2]

theorem wrap1_congr (L v : G) : ∃ k : Int, (k = -1 ∨ k = 0 ∨ k = 1) ∧ wrap1 L v = v + k * L := by
  rcases wrap1_cases L v with ⟨-, -, h⟩ | ⟨-, -, h⟩ | ⟨-, -, h⟩ | ⟨-, -, h⟩
  · exact ⟨0, by simp, by rw [h]; simp⟩
  · exact ⟨-1, by simp, by rw [h]; push_cast; ring⟩
  · exact ⟨1, by simp, by rw [h]; simp⟩
  · exact ⟨0, by simp, by rw [h]; simp⟩

theorem wrap1_range {L v : G} (h1 : -(3 * L / 2) < v) (h2 : v ≤ 3 * L / 2) :
    -(L / 2) < wrap1 L v ∧ wrap1 L v ≤ L / 2 := by
  rcases wrap1_cases L v with ⟨a, b, h⟩ | ⟨a, b, h⟩ | ⟨a, b, h⟩ | ⟨a, b, h⟩ <;> rw [h] <;>
    constructor <;> linarith

/-- A value in `(-L/2, L/2]` is determined by its class modulo `L`. -/
theorem rep_unique {L x y : G} (hL : 0 < L) (hx : -(L / 2) < x ∧ x ≤ L / 2) (hy : -(L / 2) < y ∧ y ≤ L / 2)
    {n : Int} (h : x = y + n * L) : x = y ∧ n = 0 := by
  have hn : n = 0 := by
    rcases lt_trichotomy n 0 with hn | hn | hn
    · have : (n : G) ≤ -1 := by exact_mod_cast Int.le_sub_one_of_lt hn
      nlinarith [hx.1, hy.2]
    · exact hn
    · have : (1 : G) ≤ n := by exact_mod_cast hn
      nlinarith [hx.2, hy.1]
  subst hn
  exact ⟨by simpa using h, rfl⟩

theorem wrap1_periodic {L v w : G} (hL : 0 < L) (h1 : -(3 * L / 2) < v) (h2 : v ≤ 3 * L / 2)
    (h3 : -(3 * L / 2) < w) (h4 : w ≤ 3 * L / 2) {n : Int} (h : v = w + n * L) : wrap1 L v = wrap1 L w := by
  obtain ⟨k, -, hk⟩ := wrap1_congr L v
  obtain ⟨m, -, hm⟩ := wrap1_congr L w
  refine (rep_unique hL (wrap1_range h1 h2) (wrap1_range h3 h4) (n := n + k - m) ?_).1
  rw [hk, hm, h]; push_cast; ring

theorem rep_minimal {L x : G} (hL : 0 < L) (hx : -(L / 2) < x ∧ x ≤ L / 2) (n : Int) :
    x * x ≤ (x + n * L) * (x + n * L) := by
  rcases lt_trichotomy n 0 with hn | hn | hn
  · have : (n : G) ≤ -1 := by exact_mod_cast Int.le_sub_one_of_lt hn
    have h1 : n * L ≤ -L := by nlinarith
    have h2 : x + n * L ≤ -(L / 2) := by linarith [hx.2]
    nlinarith [hx.1, hx.2]
  · subst hn; simp
  · have : (1 : G) ≤ n := by exact_mod_cast hn
    have h1 : L ≤ n * L := by nlinarith
    have h2 : L / 2 ≤ x + n * L := by linarith [hx.1]
    nlinarith [hx.1, hx.2]

theorem wrap1_neg_sq {L v : G} (hL : 0 < L) (h1 : -(3 * L / 2) < v) (h2 : v < 3 * L / 2) :
    wrap1 L (-v) * wrap1 L (-v) = wrap1 L v * wrap1 L v := by
  obtain ⟨k, -, hk⟩ := wrap1_congr L v
  obtain ⟨m, -, hm⟩ := wrap1_congr L (-v)
  have r1 := wrap1_range h1 h2.le
  have r2 := wrap1_range (L := L) (v := -v) (by linarith) (by linarith)
  refine le_antisymm ?_ ?_
  · have := rep_minimal hL r2 (-m - k)
    calc _ ≤ _ := this
      _ = _ := by rw [hk, hm]; push_cast; ring
  · have := rep_minimal hL r1 (-m - k)
    calc _ ≤ _ := this
      _ = _ := by rw [hk, hm]; push_cast; ring

theorem mem_shifts {ps : Particles G} {v : Coord G} :
    v ∈ shifts ps ↔ ∃ n : Fin 3 → Int, (∀ a, n a = -1 ∨ n a = 0 ∨ n a = 1) ∧
      ∀ a, v a = n a * getPeriod ps a := by
  unfold shifts
  simp only [List.mem_flatMap, List.mem_map]
  constructor
  · rintro ⟨i, hi, j, hj, k, hk, rfl⟩
    refine ⟨fun a => match a with | 0 => i | 1 => j | 2 => k, ?_, ?_⟩
    · intro a
      match a with
      | 0 => simpa using hi
      | 1 => simpa using hj
      | 2 => simpa using hk
    · intro a
      match a with
      | 0 => rfl
      | 1 => rfl
      | 2 => rfl
  · rintro ⟨n, h1, h2⟩
    refine ⟨n 0, by simpa using h1 0, n 1, by simpa using h1 1, n 2, by simpa using h1 2, ?_⟩
    funext a
    match a with
    | 0 => exact (h2 0).symm
    | 1 => exact (h2 1).symm
    | 2 => exact (h2 2).symm

/-- All the particles are in the periodic box, which is not flat. -/
def InBox (ps : Particles G) : Prop :=
  (∀ a, ps.bb.lo a < ps.bb.hi a) ∧ ∀ x ∈ ps.pos, ∀ a, ps.bb.lo a ≤ x a ∧ x a ≤ ps.bb.hi a

open Particles

theorem selectEnclosed_ok {P : RParams G} {H : Heur 3 G} (hP : P.Valid) (hH : H.Valid P)
    {ps : Particles G} (hc : Coherent P H ps) (q : Box 3 G) :
    ∃ L, selectEnclosed ps q = .ok L ∧ L.Pairwise (· < ·) ∧
      (∀ p ∈ L, ∃ x, ps.pos[p]? = some x ∧ ∃ n : Fin 3 → Int, (∀ a, n a = -1 ∨ n a = 0 ∨ n a = 1) ∧
        ∀ a, q.lo a ≤ x a + n a * getPeriod ps a ∧ x a + n a * getPeriod ps a ≤ q.hi a) ∧
      (InBox ps → ∀ p x, ps.pos[p]? = some x → ∀ n : Fin 3 → Int, (∀ a, n a = -1 ∨ n a = 0 ∨ n a = 1) →
        (∀ a, q.lo a < x a + n a * getPeriod ps a ∧ x a + n a * getPeriod ps a < q.hi a) → p ∈ L) := by
  obtain ⟨t, h1, h2, h3⟩ := hc
  have hsel : ∀ q, ps.selectEnclosed q = .ok (RStarIndex.select t q) := by
    intro q; simp [Particles.selectEnclosed, h1]
  unfold selectEnclosed
  by_cases he : ps.bb.encloses q = true
  · rw [if_pos he, hsel]
    refine ⟨_, rfl, sortUnique_sorted _, ?_, ?_⟩
    · intro p hp
      obtain ⟨x, hx, hin⟩ := select_point_sound hP hH h2 h3 q p hp
      exact ⟨x, hx, fun _ => 0, by simp, fun a => by simpa using hin a⟩
    · intro hb p x hx n hn hin
      have hn0 : ∀ a, n a = 0 := by
        intro a
        have e := (Box.encloses_iff.1 he) a
        have b1 := hb.2 x (List.mem_of_getElem? hx) a
        have b2 := hin a
        have b3 := hb.1 a
        unfold getPeriod at b2
        rcases hn a with h | h | h
        · rw [h] at b2; push_cast at b2; exfalso; linarith [b2.1, b2.2, e.1, e.2, b1.1, b1.2]
        · exact h
        · rw [h] at b2; push_cast at b2; exfalso; linarith [b2.1, b2.2, e.1, e.2, b1.1, b1.2]
      refine select_point_complete hP hH h2 h3 q hx (fun a => ?_)
      have := hin a
      rw [hn0 a] at this
      simpa using this
  · rw [if_neg he]
    rw [TreeIndex.mapM_ok_of _ (fun v => RStarIndex.select t (q.translate v)) _ (fun v _ => hsel _),
      ok_bind, pure_eq_ok]
    refine ⟨_, rfl, sortUnique_sorted _, ?_, ?_⟩
    · intro p hp
      rw [mem_sortUnique, List.mem_flatten] at hp
      obtain ⟨l, hl, hp⟩ := hp
      obtain ⟨v, hv, rfl⟩ := List.mem_map.1 hl
      obtain ⟨n, hn, hvn⟩ := mem_shifts.1 hv
      obtain ⟨x, hx, hin⟩ := select_point_sound hP hH h2 h3 _ p hp
      refine ⟨x, hx, fun a => - n a, ?_, ?_⟩
      · intro a; rcases hn a with h | h | h <;> simp [h]
      · intro a
        have := hin a
        simp only [Box.translate, hvn] at this
        push_cast
        constructor <;> linarith [this.1, this.2]
    · intro _ p x hx n hn hin
      rw [mem_sortUnique, List.mem_flatten]
      refine ⟨_, List.mem_map.2 ⟨fun a => ((- n a : Int) : G) * getPeriod ps a, mem_shifts.2 ⟨fun a => - n a, ?_, fun a => rfl⟩, rfl⟩, ?_⟩
      · intro a; rcases hn a with h | h | h <;> simp [h]
      · refine select_point_complete hP hH h2 h3 _ hx (fun a => ?_)
        have := hin a
        simp only [Box.translate]
        push_cast
        constructor <;> linarith [this.1, this.2]

/-- Squared distance from `c` to particle `p` computed with the periodic difference. -/
def pdistSq (ps : Particles G) (c : Coord G) (p : Nat) : G :=
  match ps.pos[p]? with
  | some x => dot3 (periodify ps (x - c)) (periodify ps (x - c))
  | none => 0

omit [IsStrictOrderedRing G] in
theorem pdistSq_eq {ps : Particles G} {c : Coord G} {p : Nat} {x : Coord G} (h : ps.pos[p]? = some x) :
    pdistSq ps c p = dot3 (periodify ps (x - c)) (periodify ps (x - c)) := by unfold pdistSq; rw [h]

theorem pdistSq_nonneg (ps : Particles G) (c : Coord G) (p : Nat) : 0 ≤ pdistSq ps c p := by
  unfold pdistSq
  split
  · exact dot3_self_nonneg _
  · exact le_refl _

theorem searches_periodic {P : RParams G} {H : Heur 3 G} (hP : P.Valid) (hH : H.Valid P)
    {ps : Particles G} (hc : Coherent P H ps) (hb : InBox ps) (c : Coord G) :
    Searches geometry ps c (pdistSq ps c) := by
  refine ⟨?_, ?_⟩
  · intro p hp
    refine ⟨periodify ps (ps.pos[p] - c), ?_, ?_⟩
    · simp [geometry, getDiff, Particles.getDiff, at_ok hp]
    · rw [pdistSq_eq (x := ps.pos[p]) (by simp [hp])]
  · intro r
    obtain ⟨L, h1, h2, h3, h4⟩ := selectEnclosed_ok hP hH hc (bounds c r)
    refine ⟨L, h1, h2, ?_, ?_, ?_⟩
    · intro p hp
      obtain ⟨x, hx, -⟩ := h3 p hp
      exact (List.getElem?_eq_some_iff.1 hx).1
    · intro p hp hr hd
      have hx : ps.pos[p]? = some ps.pos[p] := by simp [hp]
      rw [pdistSq_eq hx] at hd
      choose n hn hv using fun a => wrap1_congr (getPeriod ps a) ((ps.pos[p] - c) a)
      refine h4 hb p _ hx n hn (fun a => ?_)
      have := abs_lt_of_dot3 hr hd a
      rw [periodify, hv a] at this
      simp only [bounds, Pi.sub_apply] at this ⊢
      constructor <;> linarith [this.1, this.2]
    · intro hr
      rw [List.eq_nil_iff_forall_not_mem]
      intro p hp
      obtain ⟨x, -, n, -, hx⟩ := h3 p hp
      have := hx 0
      simp only [bounds] at this
      linarith [this.1, this.2]

end Periodic
end Colloids
