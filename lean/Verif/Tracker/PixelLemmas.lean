import Verif.Tracker.PixelModel
import Mathlib.Tactic.Ring
import Mathlib.Tactic.Linarith

namespace Colloids
namespace Tracker

variable {G : Type} [Field G] [LinearOrder G]

/-- The condition on the values. -/
def Peak (thr : G) (img : List G) (ss : List Nat) (p : Nat) : Prop :=
  ∃ x, img[p]? = some x ∧ thr ≤ x ∧ ∀ s ∈ ss, (∀ a, img[p - s]? = some a → a ≤ x) ∧ ∀ b, img[p + s]? = some b → b ≤ x

omit [Field G] [LinearOrder G] in
theorem readBack_of {l : List G} {p s : Nat} (hs : s ≤ p) (hp : p < l.length) :
    readBack l p s = .ok (l[p - s]'(by omega)) := by
  unfold readBack
  rw [if_pos hs, getR_of_lt]

omit [Field G] in
theorem noGreater_ok (img : List G) (x : G) (p : Nat) : ∀ (ss : List Nat),
    (∀ s ∈ ss, s ≤ p ∧ p + s < img.length) →
    ∃ b, noGreater img x p ss = .ok b ∧
      (b = true ↔ ∀ s ∈ ss, (∀ a, img[p - s]? = some a → a ≤ x) ∧ ∀ b, img[p + s]? = some b → b ≤ x) := by
  intro ss
  induction ss with
  | nil => intro _; exact ⟨true, rfl, by simp⟩
  | cons s ss ih =>
    intro h
    obtain ⟨h1, h2⟩ := h s (by simp)
    obtain ⟨b, e, hb⟩ := ih (fun t ht => h t (by simp [ht]))
    have ha : img[p - s]? = some (img[p - s]'(by omega)) := List.getElem?_eq_getElem (by omega)
    have hb' : img[p + s]? = some (img[p + s]'(by omega)) := List.getElem?_eq_getElem h2
    rw [noGreater, readBack_of h1 (by omega), ok_bind]
    by_cases c1 : x < img[p - s]
    · rw [if_pos c1]
      refine ⟨false, rfl, ?_⟩
      simp only [Bool.false_eq_true, false_iff, not_forall]
      exact ⟨s, by simp, fun hh => absurd (hh.1 _ ha) (not_le.2 c1)⟩
    · rw [if_neg c1, getR_of_lt h2, ok_bind]
      by_cases c2 : x < img[p + s]
      · rw [if_pos c2]
        refine ⟨false, rfl, ?_⟩
        simp only [Bool.false_eq_true, false_iff, not_forall]
        exact ⟨s, by simp, fun hh => absurd (hh.2 _ hb') (not_le.2 c2)⟩
      · rw [if_neg c2, e]
        refine ⟨b, rfl, ?_⟩
        rw [hb, List.forall_mem_cons]
        constructor
        · intro hh
          refine ⟨⟨?_, ?_⟩, hh⟩
          · intro a hx
            rw [ha] at hx
            cases hx
            exact not_lt.1 c1
          · intro a hx
            rw [hb'] at hx
            cases hx
            exact not_lt.1 c2
        · exact fun hh => hh.2

theorem noFlag_ok (map : List Bool) (p : Nat) : ∀ (ss : List Nat), (∀ s ∈ ss, s ≤ p) → p < map.length →
    ∃ b, noFlag map p ss = .ok b ∧ (b = true ↔ ∀ s ∈ ss, map[p - s]? ≠ some true) := by
  intro ss
  induction ss with
  | nil => intro _ _; exact ⟨true, rfl, by simp⟩
  | cons s ss ih =>
    intro h hp
    obtain ⟨b, e, hb⟩ := ih (fun t ht => h t (by simp [ht])) hp
    have ha : map[p - s]? = some (map[p - s]'(by omega)) := List.getElem?_eq_getElem (by omega)
    rw [noFlag, readBack_of (h s (by simp)) hp, ok_bind]
    by_cases c1 : map[p - s] = true
    · rw [if_pos c1]
      refine ⟨false, rfl, ?_⟩
      simp only [Bool.false_eq_true, false_iff, not_forall]
      exact ⟨s, by simp, fun hh => hh (by rw [ha, c1])⟩
    · rw [if_neg c1, e]
      refine ⟨b, rfl, ?_⟩
      rw [hb, List.forall_mem_cons]
      constructor
      · intro hh
        refine ⟨?_, hh⟩
        intro hx
        rw [ha] at hx
        exact c1 (by simpa using hx)
      · exact fun hh => hh.2

omit [Field G] in
theorem isCenter_ok (D : Dims) (thr : G) (img : List G) (map : List Bool) (p : Nat)
    (hs : ∀ s ∈ steps D, s ≤ p ∧ p + s < img.length) (hp : p < img.length) (hm : map.length = img.length) :
    ∃ b, isCenter D thr img map p = .ok b ∧
      (b = true ↔ Peak thr img (steps D) p ∧ ∀ s ∈ steps D, map[p - s]? ≠ some true) := by
  have hx : img[p]? = some img[p] := List.getElem?_eq_getElem hp
  obtain ⟨b1, e1, h1⟩ := noGreater_ok img img[p] p (steps D) hs
  obtain ⟨b2, e2, h2⟩ := noFlag_ok map p (steps D) (fun s h => (hs s h).1) (by omega)
  unfold isCenter
  rw [getR_of_lt hp, ok_bind]
  by_cases c : thr ≤ img[p]
  · rw [if_pos c, e1, ok_bind]
    cases b1 with
    | false =>
      refine ⟨false, rfl, ?_⟩
      simp only [Bool.false_eq_true, false_iff]
      rintro ⟨⟨x, hx', -, hh⟩, -⟩
      rw [hx] at hx'
      cases hx'
      exact absurd (h1.2 hh) (by decide)
    | true =>
      refine ⟨b2, e2, ?_⟩
      rw [h2]
      constructor
      · exact fun hh => ⟨⟨img[p], hx, c, h1.1 rfl⟩, hh⟩
      · exact fun hh => hh.2
  · rw [if_neg c]
    refine ⟨false, rfl, ?_⟩
    simp only [Bool.false_eq_true, false_iff]
    rintro ⟨⟨x, hx', hh, -⟩, -⟩
    rw [hx] at hx'
    cases hx'
    exact c hh

omit [Field G] in
theorem scan_ok (D : Dims) (thr : G) (img : List G) (hpos : ∀ s ∈ steps D, 0 < s) : ∀ (c p : Nat) (map : List Bool),
    (∀ s ∈ steps D, s ≤ p ∧ p + c + s ≤ img.length) → p + c ≤ img.length → map.length = img.length →
    ∃ map', scan D thr img c p map = .ok map' ∧ map'.length = map.length ∧
      (∀ r, r < p ∨ p + c ≤ r → map'[r]? = map[r]?) ∧
      ∀ r, p ≤ r → r < p + c →
        (map'[r]? = some true ↔ Peak thr img (steps D) r ∧ ∀ s ∈ steps D, map'[r - s]? ≠ some true) := by
  intro c
  induction c with
  | zero => intro p map _ _ _; exact ⟨map, rfl, rfl, fun _ _ => rfl, fun r h1 h2 => by omega⟩
  | succ c ih =>
    intro p map hs hp hm
    obtain ⟨b, e, hb⟩ := isCenter_ok D thr img map p
      (fun s h => ⟨(hs s h).1, by have := (hs s h).2; omega⟩) (by omega) hm
    have hset : setR map p b = .ok (map.set p b) := setR_ok.2 ⟨by omega, rfl⟩
    obtain ⟨m, a1, a2, a3, a4⟩ := ih (p + 1) (map.set p b)
      (fun s h => ⟨by have := (hs s h).1; omega, by have := (hs s h).2; omega⟩) (by omega) (by rw [List.length_set, hm])
    refine ⟨m, by rw [scan, e, ok_bind, hset, ok_bind, a1], by rw [a2, List.length_set], ?_, ?_⟩
    · intro r hr
      rw [a3 r (by omega), List.getElem?_set_ne (by omega)]
    · intro r h1 h2
      by_cases hr : r = p
      · subst hr
        have hback : ∀ s ∈ steps D, m[r - s]? = map[r - s]? := by
          intro s h
          have h3 := hpos s h
          have h4 := (hs s h).1
          rw [a3 _ (by omega), List.getElem?_set_ne (by omega)]
        rw [a3 r (by omega), List.getElem?_set_self (by omega)]
        constructor
        · intro hh
          have := hb.1 (by simpa using hh)
          refine ⟨this.1, fun s h => ?_⟩
          rw [hback s h]
          exact this.2 s h
        · rintro ⟨h3, h4⟩
          have := hb.2 ⟨h3, fun s h => by rw [← hback s h]; exact h4 s h⟩
          rw [this]
      · exact a4 r (by omega) (by omega)

theorem clear_ok : ∀ (k d : Nat) (map : List Bool), d + k ≤ map.length →
    ∃ map', clear k d map = .ok map' ∧ map'.length = map.length ∧
      (∀ i, i < d ∨ d + k ≤ i → map'[i]? = map[i]?) ∧ ∀ i, d ≤ i → i < d + k → map'[i]? = some false := by
  intro k
  induction k with
  | zero => intro d mem _; exact ⟨mem, rfl, rfl, fun _ _ => rfl, fun i h1 h2 => by omega⟩
  | succ k ih =>
    intro d mem hd
    have hset : setR mem d false = .ok (mem.set d false) := setR_ok.2 ⟨by omega, rfl⟩
    obtain ⟨mem', h1, h2, h3, h4⟩ := ih (d + 1) (mem.set d false) (by rw [List.length_set]; omega)
    refine ⟨mem', by rw [clear, hset, ok_bind, h1], by rw [h2, List.length_set], ?_, ?_⟩
    · intro i hi
      rw [h3 i (by omega), List.getElem?_set_ne (by omega)]
    · intro i hi hi'
      by_cases e : i = d
      · subst e
        rw [h3 i (by omega), List.getElem?_set_self (by omega)]
      · exact h4 i (by omega) (by omega)

theorem clears_ok : ∀ (fs : List (Nat × Nat)) (map : List Bool), (∀ f ∈ fs, f.1 + f.2 ≤ map.length) →
    ∃ map', fs.foldlM (fun map f => clear f.2 f.1 map) map = .ok map' ∧ map'.length = map.length ∧
      ∀ i, map'[i]? = some true ↔ map[i]? = some true ∧ ∀ f ∈ fs, ¬ (f.1 ≤ i ∧ i < f.1 + f.2) := by
  intro fs
  induction fs with
  | nil => intro map _; exact ⟨map, rfl, rfl, by simp⟩
  | cons f fs ih =>
    intro map h
    obtain ⟨m1, a1, a2, a3, a4⟩ := clear_ok f.2 f.1 map (h f (by simp))
    obtain ⟨m2, b1, b2, b3⟩ := ih m1 (fun g hg => by rw [a2]; exact h g (by simp [hg]))
    refine ⟨m2, by rw [List.foldlM_cons, a1, ok_bind, b1], by rw [b2, a2], ?_⟩
    intro i
    rw [b3, List.forall_mem_cons]
    by_cases hi : f.1 ≤ i ∧ i < f.1 + f.2
    · rw [a4 i hi.1 hi.2]
      simp [hi]
    · rw [a3 i (by omega)]
      tauto

/-! ## Indices -/

theorem idx_lt {D : Dims} {i j k : Nat} (hi : i < D.n0) (hj : j < D.n1) (hk : k < D.n2) : D.idx i j k < D.size := by
  have h1 : j * D.n2 + k < D.n1 * D.n2 := by
    have : (j + 1) * D.n2 ≤ D.n1 * D.n2 := Nat.mul_le_mul_right _ hj
    rw [Nat.succ_mul] at this
    omega
  have h2 : (i + 1) * (D.n1 * D.n2) ≤ D.n0 * (D.n1 * D.n2) := Nat.mul_le_mul_right _ hi
  rw [Nat.succ_mul] at h2
  unfold Dims.idx Dims.size
  rw [Nat.mul_assoc]
  omega

theorem idx_surj {D : Dims} {p : Nat} (hp : p < D.size) :
    ∃ i j k, i < D.n0 ∧ j < D.n1 ∧ k < D.n2 ∧ p = D.idx i j k := by
  unfold Dims.size at hp
  rw [Nat.mul_assoc] at hp
  have hS : 0 < D.n1 * D.n2 := by
    rcases Nat.eq_zero_or_pos (D.n1 * D.n2) with h | h
    · rw [h] at hp; omega
    · exact h
  have h2 : 0 < D.n2 := Nat.pos_of_mul_pos_left hS
  have e1 := Nat.div_add_mod p (D.n1 * D.n2)
  have e2 := Nat.div_add_mod (p % (D.n1 * D.n2)) D.n2
  refine ⟨p / (D.n1 * D.n2), (p % (D.n1 * D.n2)) / D.n2, (p % (D.n1 * D.n2)) % D.n2, ?_, ?_, Nat.mod_lt _ h2, ?_⟩
  · exact Nat.div_lt_of_lt_mul (by rw [Nat.mul_comm]; exact hp)
  · exact Nat.div_lt_of_lt_mul (by rw [Nat.mul_comm D.n2]; exact Nat.mod_lt _ hS)
  · unfold Dims.idx
    rw [Nat.mul_comm (p / _), Nat.mul_comm (p % _ / _)]
    omega

theorem mem_steps {D : Dims} {s : Nat} : s ∈ steps D ↔
    (13 ≤ D.n0 ∧ s = D.n1 * D.n2) ∨ (13 ≤ D.n1 ∧ s = D.n2) ∨ (13 ≤ D.n2 ∧ s = 1) := by
  unfold steps margin
  by_cases h0 : D.n0 ≥ 2 * 6 + 1 <;> by_cases h1 : D.n1 ≥ 2 * 6 + 1 <;> by_cases h2 : D.n2 ≥ 2 * 6 + 1 <;>
    simp [h0, h1, h2]

theorem offset_eq (D : Dims) : offset D =
    6 * ((if 13 ≤ D.n0 then D.n1 * D.n2 else 0) + (if 13 ≤ D.n1 then D.n2 else 0) + (if 13 ≤ D.n2 then 1 else 0)) := by
  unfold offset steps margin
  by_cases h0 : D.n0 ≥ 2 * 6 + 1 <;> by_cases h1 : D.n1 ≥ 2 * 6 + 1 <;> by_cases h2 : D.n2 ≥ 2 * 6 + 1 <;>
    simp [h0, h1, h2] <;> ring

/-- A coordinate away from the borders, if the dimension is not too small. -/
def Inside (n i : Nat) : Prop := i < n ∧ (13 ≤ n → 6 ≤ i ∧ i + 6 < n)

/-- A pixel away from the borders. -/
def Interior (D : Dims) (i j k : Nat) : Prop := Inside D.n0 i ∧ Inside D.n1 j ∧ Inside D.n2 k

theorem two_offset (D : Dims) (h0 : 0 < D.n0) (h1 : 0 < D.n1) (h2 : 0 < D.n2) : 2 * offset D ≤ D.size := by
  rw [offset_eq]
  unfold Dims.size
  have hA : (if 13 ≤ D.n2 then 1 else 0) * 12 ≤ D.n2 := by split <;> omega
  have hA' : (if 13 ≤ D.n2 then 1 else 0) * 12 + 1 ≤ D.n2 := by split <;> omega
  have hB : (if 13 ≤ D.n1 then D.n2 else 0) * 12 + D.n2 ≤ D.n1 * D.n2 := by
    split
    · next h =>
      have := Nat.mul_le_mul_right D.n2 h
      omega
    · have := Nat.mul_le_mul_right D.n2 h1
      omega
  have hC : (if 13 ≤ D.n0 then D.n1 * D.n2 else 0) * 12 + D.n1 * D.n2 ≤ D.n0 * (D.n1 * D.n2) := by
    split
    · next h =>
      have := Nat.mul_le_mul_right (D.n1 * D.n2) h
      omega
    · have := Nat.mul_le_mul_right (D.n1 * D.n2) h0
      omega
  rw [Nat.mul_assoc]
  omega

/-- The interior is in the range of the loop. -/
theorem interior_range {D : Dims} {i j k : Nat} (h : Interior D i j k) :
    offset D ≤ D.idx i j k ∧ D.idx i j k + offset D < D.size := by
  obtain ⟨⟨a1, a2⟩, ⟨b1, b2⟩, c1, c2⟩ := h
  rw [offset_eq]
  unfold Dims.idx Dims.size
  rw [Nat.mul_assoc]
  have hA : 6 * (if 13 ≤ D.n2 then 1 else 0) ≤ k ∧ k + 6 * (if 13 ≤ D.n2 then 1 else 0) < D.n2 := by
    split <;> omega
  have hB : 6 * (if 13 ≤ D.n1 then D.n2 else 0) ≤ j * D.n2 ∧
      j * D.n2 + 6 * (if 13 ≤ D.n1 then D.n2 else 0) + D.n2 ≤ D.n1 * D.n2 := by
    split
    · next h =>
      have e1 := Nat.mul_le_mul_right D.n2 (b2 h).1
      have e2 : (j + 6 + 1) * D.n2 ≤ D.n1 * D.n2 := Nat.mul_le_mul_right D.n2 (b2 h).2
      rw [Nat.add_mul, Nat.add_mul] at e2
      omega
    · have e2 : (j + 1) * D.n2 ≤ D.n1 * D.n2 := Nat.mul_le_mul_right D.n2 b1
      rw [Nat.add_mul] at e2
      omega
  have hC : 6 * (if 13 ≤ D.n0 then D.n1 * D.n2 else 0) ≤ i * (D.n1 * D.n2) ∧
      i * (D.n1 * D.n2) + 6 * (if 13 ≤ D.n0 then D.n1 * D.n2 else 0) + D.n1 * D.n2 ≤ D.n0 * (D.n1 * D.n2) := by
    split
    · next h =>
      have e1 := Nat.mul_le_mul_right (D.n1 * D.n2) (a2 h).1
      have e2 : (i + 6 + 1) * (D.n1 * D.n2) ≤ D.n0 * (D.n1 * D.n2) := Nat.mul_le_mul_right _ (a2 h).2
      rw [Nat.add_mul, Nat.add_mul] at e2
      omega
    · have e2 : (i + 1) * (D.n1 * D.n2) ≤ D.n0 * (D.n1 * D.n2) := Nat.mul_le_mul_right _ a1
      rw [Nat.add_mul] at e2
      omega
  omega

/-- The first dimension of what is in the range of the loop. -/
theorem range_first {D : Dims} {i j k : Nat} (hj : j < D.n1) (hk : k < D.n2) (hi : i < D.n0)
    (h1 : offset D ≤ D.idx i j k) (h2 : D.idx i j k + offset D < D.size) : Inside D.n0 i := by
  refine ⟨hi, fun h => ?_⟩
  rw [offset_eq, if_pos h] at h1 h2
  have hjk : j * D.n2 + k < D.n1 * D.n2 := by
    have : (j + 1) * D.n2 ≤ D.n1 * D.n2 := Nat.mul_le_mul_right _ hj
    rw [Nat.succ_mul] at this
    omega
  unfold Dims.idx at h1 h2
  unfold Dims.size at h2
  rw [Nat.mul_assoc] at h2
  constructor
  · by_contra hc
    have : (i + 1) * (D.n1 * D.n2) ≤ 6 * (D.n1 * D.n2) := Nat.mul_le_mul_right _ (by omega)
    rw [Nat.succ_mul] at this
    omega
  · by_contra hc
    have : D.n0 * (D.n1 * D.n2) ≤ (i + 6) * (D.n1 * D.n2) := Nat.mul_le_mul_right _ (by omega)
    rw [Nat.add_mul] at this
    omega

theorem idx_inj {D : Dims} {i j k i' j' k' : Nat} (hj : j < D.n1) (hk : k < D.n2) (hj' : j' < D.n1) (hk' : k' < D.n2)
    (h : D.idx i j k = D.idx i' j' k') : i = i' ∧ j = j' ∧ k = k' := by
  have row : ∀ {a b c d m : Nat}, b < m → d < m → a * m + b = c * m + d → a = c ∧ b = d := by
    intro a b c d m hb hd he
    have h1 : (a * m + b) / m = a := by
      rw [Nat.mul_comm, Nat.mul_add_div (by omega), Nat.div_eq_of_lt hb, Nat.add_zero]
    have h2 : (c * m + d) / m = c := by
      rw [Nat.mul_comm, Nat.mul_add_div (by omega), Nat.div_eq_of_lt hd, Nat.add_zero]
    have : a = c := by rw [← h1, ← h2, he]
    subst this
    exact ⟨rfl, by omega⟩
  have lt : ∀ {a b : Nat}, a < D.n1 → b < D.n2 → a * D.n2 + b < D.n1 * D.n2 := by
    intro a b ha hb
    have : (a + 1) * D.n2 ≤ D.n1 * D.n2 := Nat.mul_le_mul_right _ ha
    rw [Nat.succ_mul] at this
    omega
  unfold Dims.idx at h
  rw [Nat.add_assoc, Nat.add_assoc] at h
  obtain ⟨e1, e2⟩ := row (lt hj hk) (lt hj' hk') h
  obtain ⟨e3, e4⟩ := row hk hk' e2
  exact ⟨e1, e3, e4⟩

/-- What the margins do not cover. -/
theorem margins_spec {D : Dims} {i j k : Nat} (hi : i < D.n0) (hj : j < D.n1) (hk : k < D.n2) :
    (∀ f ∈ margins D, ¬ (f.1 ≤ D.idx i j k ∧ D.idx i j k < f.1 + f.2)) ↔ Inside D.n1 j ∧ Inside D.n2 k := by
  -- a block of rows of the second dimension
  have lt : ∀ {a b : Nat}, a < D.n1 → b < D.n2 → a * D.n2 + b < D.n1 * D.n2 := by
    intro a b ha hb
    have : (a + 1) * D.n2 ≤ D.n1 * D.n2 := Nat.mul_le_mul_right _ ha
    rw [Nat.succ_mul] at this
    omega
  have blk : ∀ i' u w, u + w ≤ D.n1 → (i' * (D.n1 * D.n2) + u * D.n2 ≤ D.idx i j k ∧
      D.idx i j k < i' * (D.n1 * D.n2) + u * D.n2 + D.n2 * w ↔ i = i' ∧ u ≤ j ∧ j < u + w) := by
    intro i' u w huw
    have hm : u * D.n2 + D.n2 * w ≤ D.n1 * D.n2 := by
      rw [Nat.mul_comm D.n2 w, ← Nat.add_mul]
      exact Nat.mul_le_mul_right _ huw
    have hl := lt hj hk
    unfold Dims.idx
    constructor
    · intro ⟨h1, h2⟩
      have hii : i = i' := by
        by_contra hne
        rcases Nat.lt_or_gt_of_ne hne with hlt | hlt
        · have : (i + 1) * (D.n1 * D.n2) ≤ i' * (D.n1 * D.n2) := Nat.mul_le_mul_right _ hlt
          rw [Nat.succ_mul] at this
          omega
        · have : (i' + 1) * (D.n1 * D.n2) ≤ i * (D.n1 * D.n2) := Nat.mul_le_mul_right _ hlt
          rw [Nat.succ_mul] at this
          omega
      subst hii
      refine ⟨rfl, ?_, ?_⟩
      · by_contra hc
        have : (j + 1) * D.n2 ≤ u * D.n2 := Nat.mul_le_mul_right _ (by omega)
        rw [Nat.succ_mul] at this
        omega
      · by_contra hc
        have : (u + w) * D.n2 ≤ j * D.n2 := Nat.mul_le_mul_right _ (by omega)
        rw [Nat.add_mul, Nat.mul_comm w] at this
        omega
    · rintro ⟨rfl, h1, h2⟩
      have e1 : u * D.n2 ≤ j * D.n2 := Nat.mul_le_mul_right _ h1
      have e2 : (j + 1) * D.n2 ≤ (u + w) * D.n2 := Nat.mul_le_mul_right _ h2
      rw [Nat.add_mul, Nat.add_mul, Nat.mul_comm w] at e2
      omega
  have row : ∀ i' j' u w, j' < D.n1 → u + w ≤ D.n2 → (i' * (D.n1 * D.n2) + j' * D.n2 + u ≤ D.idx i j k ∧
      D.idx i j k < i' * (D.n1 * D.n2) + j' * D.n2 + u + w ↔ i = i' ∧ j = j' ∧ u ≤ k ∧ k < u + w) := by
    intro i' j' u w hj' huw
    constructor
    · intro ⟨h1, h2⟩
      have hx : D.idx i j k = D.idx i' j' (D.idx i j k - (i' * (D.n1 * D.n2) + j' * D.n2)) := by
        conv_rhs => unfold Dims.idx
        unfold Dims.idx
        unfold Dims.idx at h1
        omega
      obtain ⟨e1, e2, e3⟩ := idx_inj hj hk hj' (by omega) hx
      exact ⟨e1, e2, by omega, by omega⟩
    · rintro ⟨rfl, rfl, h1, h2⟩
      unfold Dims.idx
      omega
  have hA : (∀ f ∈ (if D.n1 ≥ 2 * margin + 1 then (List.range D.n0).flatMap fun i =>
      [(i * (D.n1 * D.n2), D.n2 * margin), (i * (D.n1 * D.n2) + (D.n1 - margin) * D.n2, D.n2 * margin)] else []),
      ¬ (f.1 ≤ D.idx i j k ∧ D.idx i j k < f.1 + f.2)) ↔ Inside D.n1 j := by
    unfold Inside margin
    by_cases h : D.n1 ≥ 2 * 6 + 1
    · rw [if_pos h]
      constructor
      · intro H
        refine ⟨hj, fun _ => ⟨?_, ?_⟩⟩
        · by_contra hc
          refine H (i * (D.n1 * D.n2), D.n2 * 6) ?_ ?_
          · rw [List.mem_flatMap]
            exact ⟨i, List.mem_range.2 hi, by simp⟩
          · have := (blk i 0 6 (by omega)).2 ⟨rfl, by omega, by omega⟩
            rw [Nat.zero_mul, Nat.add_zero] at this
            exact this
        · by_contra hc
          refine H (i * (D.n1 * D.n2) + (D.n1 - 6) * D.n2, D.n2 * 6) ?_ ?_
          · rw [List.mem_flatMap]
            exact ⟨i, List.mem_range.2 hi, by simp⟩
          · exact (blk i (D.n1 - 6) 6 (by omega)).2 ⟨rfl, by omega, by omega⟩
      · intro ⟨_, H⟩ f hf hc
        rw [List.mem_flatMap] at hf
        obtain ⟨i', -, hf⟩ := hf
        have := H (by omega)
        rcases List.mem_pair.1 hf with rfl | rfl
        · have e := (blk i' 0 6 (by omega)).1 (by rw [Nat.zero_mul, Nat.add_zero]; exact hc)
          omega
        · have e := (blk i' (D.n1 - 6) 6 (by omega)).1 hc
          omega
    · rw [if_neg h]
      constructor
      · exact fun _ => ⟨hj, fun h' => by omega⟩
      · intro _ f hf
        simp at hf
  have hB : (∀ f ∈ (if D.n2 ≥ 2 * margin + 1 then (List.range D.n0).flatMap fun i => (List.range D.n1).flatMap fun j =>
      [(i * (D.n1 * D.n2) + j * D.n2, margin), (i * (D.n1 * D.n2) + j * D.n2 + (D.n2 - margin), margin)] else []),
      ¬ (f.1 ≤ D.idx i j k ∧ D.idx i j k < f.1 + f.2)) ↔ Inside D.n2 k := by
    unfold Inside margin
    by_cases h : D.n2 ≥ 2 * 6 + 1
    · rw [if_pos h]
      constructor
      · intro H
        refine ⟨hk, fun _ => ⟨?_, ?_⟩⟩
        · by_contra hc
          refine H (i * (D.n1 * D.n2) + j * D.n2, 6) ?_ ?_
          · rw [List.mem_flatMap]
            refine ⟨i, List.mem_range.2 hi, ?_⟩
            rw [List.mem_flatMap]
            exact ⟨j, List.mem_range.2 hj, by simp⟩
          · have := (row i j 0 6 hj (by omega)).2 ⟨rfl, rfl, by omega, by omega⟩
            rw [Nat.add_zero] at this
            exact this
        · by_contra hc
          refine H (i * (D.n1 * D.n2) + j * D.n2 + (D.n2 - 6), 6) ?_ ?_
          · rw [List.mem_flatMap]
            refine ⟨i, List.mem_range.2 hi, ?_⟩
            rw [List.mem_flatMap]
            exact ⟨j, List.mem_range.2 hj, by simp⟩
          · exact (row i j (D.n2 - 6) 6 hj (by omega)).2 ⟨rfl, rfl, by omega, by omega⟩
      · intro ⟨_, H⟩ f hf hc
        rw [List.mem_flatMap] at hf
        obtain ⟨i', -, hf⟩ := hf
        rw [List.mem_flatMap] at hf
        obtain ⟨j', hj', hf⟩ := hf
        have := H (by omega)
        rcases List.mem_pair.1 hf with rfl | rfl
        · have e := (row i' j' 0 6 (List.mem_range.1 hj') (by omega)).1 (by rw [Nat.add_zero]; exact hc)
          omega
        · have e := (row i' j' (D.n2 - 6) 6 (List.mem_range.1 hj') (by omega)).1 hc
          omega
    · rw [if_neg h]
      constructor
      · exact fun _ => ⟨hk, fun h' => by omega⟩
      · intro _ f hf
        simp at hf
  unfold margins
  rw [← hA, ← hB, List.forall_mem_append]

/-- The margins are in the image. -/
theorem margins_le (D : Dims) : ∀ f ∈ margins D, f.1 + f.2 ≤ D.size := by
  intro f hf
  unfold margins margin at hf
  unfold Dims.size
  rw [Nat.mul_assoc]
  rw [List.mem_append] at hf
  have S : ∀ i < D.n0, i * (D.n1 * D.n2) + D.n1 * D.n2 ≤ D.n0 * (D.n1 * D.n2) := by
    intro i hi
    have : (i + 1) * (D.n1 * D.n2) ≤ D.n0 * (D.n1 * D.n2) := Nat.mul_le_mul_right _ hi
    rw [Nat.succ_mul] at this
    exact this
  rcases hf with hf | hf
  · by_cases h : D.n1 ≥ 2 * 6 + 1
    · rw [if_pos h, List.mem_flatMap] at hf
      obtain ⟨i, hi, hf⟩ := hf
      have h1 := S i (List.mem_range.1 hi)
      have h2 : D.n2 * 6 ≤ D.n1 * D.n2 := by
        rw [Nat.mul_comm]
        exact Nat.mul_le_mul_right _ (by omega)
      have h3 : (D.n1 - 6) * D.n2 + D.n2 * 6 = D.n1 * D.n2 := by
        rw [Nat.mul_comm D.n2 6, ← Nat.add_mul]
        congr 1
        omega
      rcases List.mem_pair.1 hf with rfl | rfl
      · show i * (D.n1 * D.n2) + D.n2 * 6 ≤ _
        omega
      · show i * (D.n1 * D.n2) + (D.n1 - 6) * D.n2 + D.n2 * 6 ≤ _
        omega
    · rw [if_neg h] at hf
      simp at hf
  · by_cases h : D.n2 ≥ 2 * 6 + 1
    · rw [if_pos h, List.mem_flatMap] at hf
      obtain ⟨i, hi, hf⟩ := hf
      rw [List.mem_flatMap] at hf
      obtain ⟨j, hj, hf⟩ := hf
      have h1 := S i (List.mem_range.1 hi)
      have h2 : (j + 1) * D.n2 ≤ D.n1 * D.n2 := Nat.mul_le_mul_right _ (List.mem_range.1 hj)
      rw [Nat.succ_mul] at h2
      rcases List.mem_pair.1 hf with rfl | rfl
      · show i * (D.n1 * D.n2) + j * D.n2 + 6 ≤ _
        omega
      · show i * (D.n1 * D.n2) + j * D.n2 + (D.n2 - 6) + 6 ≤ _
        omega
    · rw [if_neg h] at hf
      simp at hf

end Tracker
end Colloids
