import Verif.Tracker.StoreModel
import Mathlib.Tactic.Ring
import Mathlib.Tactic.Linarith
import Mathlib.Tactic.NormNum
import Mathlib.Tactic.FieldSimp
import Mathlib.Tactic.IntervalCases
import Mathlib.Algebra.Order.Ring.Rat
import Mathlib.Algebra.Field.Rat
import Mathlib.Algebra.BigOperators.Group.List.Basic

/-! # C95 : the image that is loaded is the image that is read -/

namespace Colloids
namespace Tracker

variable {G β : Type} [Field G]

theorem Dims.lt_pad (D : Dims) : D.n2 < D.pad := by
  unfold Dims.pad Dims.half
  omega

theorem fillRow_ok (conv : β → G) : ∀ (k d : Nat) (mem : List G) (inp : List β) (sum : G),
    k ≤ inp.length → d + k ≤ mem.length →
    ∃ mem', fillRow conv k d mem inp sum = .ok (mem', inp.drop k, sum + ((inp.take k).map conv).sum) ∧
      mem'.length = mem.length ∧
      (∀ i, i < d ∨ d + k ≤ i → mem'[i]? = mem[i]?) ∧ ∀ i < k, mem'[d + i]? = (inp[i]?).map conv := by
  intro k
  induction k with
  | zero =>
    intro d mem inp sum _ _
    exact ⟨mem, by simp [fillRow], rfl, fun _ _ => rfl, fun i hi => absurd hi (Nat.not_lt_zero i)⟩
  | succ k ih =>
    intro d mem inp sum hk hd
    match inp with
    | [] => simp at hk
    | x :: inp =>
      have hset : setR mem d (conv x) = .ok (mem.set d (conv x)) := setR_ok.2 ⟨by omega, rfl⟩
      obtain ⟨mem', h1, h2, h3, h4⟩ := ih (d + 1) (mem.set d (conv x)) inp (sum + conv x) (by simpa using hk)
        (by rw [List.length_set]; omega)
      refine ⟨mem', ?_, by rw [h2, List.length_set], ?_, ?_⟩
      · rw [fillRow, hset, ok_bind, h1]
        simp [add_assoc]
      · intro i hi
        rw [h3 i (by omega), List.getElem?_set_ne (by omega)]
      · intro i hi
        match i with
        | 0 =>
          rw [h3 (d + 0) (by omega), Nat.add_zero, List.getElem?_set_self (by omega)]
          rfl
        | i + 1 =>
          rw [show d + (i + 1) = d + 1 + i by omega, h4 i (by omega)]
          rfl

theorem zeroRow_ok : ∀ (k d : Nat) (mem : List G), d + k ≤ mem.length →
    ∃ mem', zeroRow k d mem = .ok mem' ∧ mem'.length = mem.length ∧
      (∀ i, i < d ∨ d + k ≤ i → mem'[i]? = mem[i]?) ∧ ∀ i, d ≤ i → i < d + k → mem'[i]? = some 0 := by
  intro k
  induction k with
  | zero => intro d mem _; exact ⟨mem, rfl, rfl, fun _ _ => rfl, fun i h1 h2 => by omega⟩
  | succ k ih =>
    intro d mem hd
    have hset : setR mem d (0 : G) = .ok (mem.set d 0) := setR_ok.2 ⟨by omega, rfl⟩
    obtain ⟨mem', h1, h2, h3, h4⟩ := ih (d + 1) (mem.set d 0) (by rw [List.length_set]; omega)
    refine ⟨mem', by rw [zeroRow, hset, ok_bind, h1], by rw [h2, List.length_set], ?_, ?_⟩
    · intro i hi
      rw [h3 i (by omega), List.getElem?_set_ne (by omega)]
    · intro i hi hi'
      by_cases e : i = d
      · subst e
        rw [h3 i (by omega), List.getElem?_set_self (by omega)]
      · exact h4 i (by omega) (by omega)

/-- From the row `d / pad` on, `rows` rows hold the pixels `img`. -/
def Holds (D : Dims) (d rows : Nat) (mem : List G) (img : List G) : Prop :=
  ∀ r k, r < rows → k < D.n2 → mem[d + r * D.pad + k]? = img[r * D.n2 + k]?

theorem row_lt {rows r k n : Nat} (hr : r < rows) (hk : k < n) : r * n + k < rows * n := by
  have : (r + 1) * n ≤ rows * n := Nat.mul_le_mul_right n hr
  rw [Nat.succ_mul] at this
  omega

theorem fillRows_ok (D : Dims) (conv : β → G) (zero : Bool) : ∀ (rows d : Nat) (mem : List G) (inp : List β)
    (sum : G), rows * D.n2 ≤ inp.length → d + rows * D.pad ≤ mem.length →
    ∃ mem', fillRows D conv zero rows d mem inp sum =
        .ok (mem', inp.drop (rows * D.n2), sum + ((inp.take (rows * D.n2)).map conv).sum) ∧
      mem'.length = mem.length ∧ (∀ i, i < d ∨ d + rows * D.pad ≤ i → mem'[i]? = mem[i]?) ∧
      Holds D d rows mem' (inp.map conv) := by
  have hp := D.lt_pad
  intro rows
  induction rows with
  | zero =>
    intro d mem inp sum _ _
    exact ⟨mem, by simp [fillRows], rfl, fun _ _ => rfl, fun r k hr _ => absurd hr (Nat.not_lt_zero r)⟩
  | succ rows ih =>
    intro d mem inp sum hin hmem
    rw [Nat.succ_mul] at hin hmem
    obtain ⟨m1, a1, a2, a3, a4⟩ := fillRow_ok conv D.n2 d mem inp sum (by omega) (by omega)
    obtain ⟨m2, b1, b2, b3⟩ : ∃ m2, padRow zero (D.pad - D.n2) (d + D.n2) m1 = .ok m2 ∧
        m2.length = m1.length ∧ (∀ i, i < d + D.n2 ∨ d + D.pad ≤ i → m2[i]? = m1[i]?) := by
      cases zero with
      | false => exact ⟨m1, rfl, rfl, fun _ _ => rfl⟩
      | true =>
        obtain ⟨m2, h1, h2, h3, -⟩ := zeroRow_ok (D.pad - D.n2) (d + D.n2) m1 (by omega)
        exact ⟨m2, h1, h2, fun i hi => h3 i (by omega)⟩
    obtain ⟨m3, c1, c2, c3, c4⟩ := ih (d + D.pad) m2 (inp.drop D.n2) (sum + ((inp.take D.n2).map conv).sum)
      (by rw [List.length_drop]; omega) (by omega)
    refine ⟨m3, ?_, by omega, ?_, ?_⟩
    · rw [fillRows, a1, ok_bind]
      simp only
      rw [b1, ok_bind, c1]
      refine congrArg Except.ok (congrArg₂ Prod.mk rfl (congrArg₂ Prod.mk ?_ ?_))
      · rw [List.drop_drop]
        congr 1
        rw [Nat.succ_mul]
        omega
      · rw [add_assoc, ← List.sum_append, ← List.map_append, Nat.succ_mul, Nat.add_comm (rows * D.n2) D.n2,
          List.take_add]
    · intro i hi
      rw [Nat.succ_mul] at hi
      rw [c3 i (by omega), b3 i (by omega), a3 i (by omega)]
    · intro r k hr hk
      match r with
      | 0 =>
        rw [Nat.zero_mul, Nat.add_zero, Nat.zero_mul, Nat.zero_add, c3 (d + k) (by omega), b3 _ (by omega),
          a4 k hk, List.getElem?_map]
      | r + 1 =>
        have := c4 r k (by omega) hk
        rw [show d + (r + 1) * D.pad + k = d + D.pad + r * D.pad + k by rw [Nat.succ_mul]; omega, this,
          List.getElem?_map, List.getElem?_map, List.getElem?_drop, show D.n2 + (r * D.n2 + k) = (r + 1) * D.n2 + k by
            rw [Nat.succ_mul]; omega]

theorem copyRow_ok (mem : List G) : ∀ (k d : Nat) (out : List G), d + k ≤ mem.length →
    copyRow k d mem out = .ok (out ++ (mem.drop d).take k) := by
  intro k
  induction k with
  | zero => intro d out _; simp [copyRow]
  | succ k ih =>
    intro d out h
    have hd : d < mem.length := by omega
    rw [copyRow, getR_of_lt hd, ok_bind, ih (d + 1) _ (by omega), List.drop_eq_getElem_cons hd, List.take_succ_cons,
      List.append_assoc, List.singleton_append]

theorem copyRows_ok (D : Dims) : ∀ (rows d : Nat) (mem out img : List G), d + rows * D.pad ≤ mem.length →
    img.length = rows * D.n2 → Holds D d rows mem img →
    ∃ mem', copyRows D rows d mem out = .ok (mem', out ++ img) ∧ mem'.length = mem.length ∧
      (∀ i, i < d ∨ d + rows * D.pad ≤ i → mem'[i]? = mem[i]?) ∧ Holds D d rows mem' img := by
  have hp := D.lt_pad
  intro rows
  induction rows with
  | zero =>
    intro d mem out img _ hi _
    have : img = [] := List.length_eq_zero_iff.1 (by simpa using hi)
    subst this
    exact ⟨mem, by simp [copyRows], rfl, fun _ _ => rfl, fun r k hr _ => absurd hr (Nat.not_lt_zero r)⟩
  | succ rows ih =>
    intro d mem out img hmem himg hH
    rw [Nat.succ_mul] at hmem himg
    obtain ⟨m2, b1, b2, b3, -⟩ := zeroRow_ok (D.pad - D.n2) (d + D.n2) mem (by omega)
    have hrow : (mem.drop d).take D.n2 = img.take D.n2 := by
      apply List.ext_getElem?
      intro i
      by_cases hi : i < D.n2
      · rw [List.getElem?_take_of_lt hi, List.getElem?_take_of_lt hi, List.getElem?_drop]
        have := hH 0 i (by omega) hi
        rwa [Nat.zero_mul, Nat.add_zero, Nat.zero_mul, Nat.zero_add] at this
      · rw [List.getElem?_eq_none (by rw [List.length_take]; omega), List.getElem?_eq_none (by rw [List.length_take]; omega)]
    obtain ⟨m3, c1, c2, c3, c4⟩ := ih (d + D.pad) m2 (out ++ img.take D.n2) (img.drop D.n2) (by omega)
      (by rw [List.length_drop]; omega) (by
        intro r k hr hk
        have h1 := hH (r + 1) k (by omega) hk
        have h2 : r * D.pad + k < rows * D.pad := row_lt hr (by omega)
        rw [Nat.succ_mul, Nat.succ_mul] at h1
        rw [b3 _ (by omega), show d + D.pad + r * D.pad + k = d + (r * D.pad + D.pad) + k by omega, h1,
          List.getElem?_drop]
        congr 1
        omega)
    refine ⟨m3, ?_, by omega, ?_, ?_⟩
    · rw [copyRows, copyRow_ok mem D.n2 d out (by omega), ok_bind, b1, ok_bind, hrow, c1, List.append_assoc,
        List.take_append_drop]
    · intro i hi
      rw [Nat.succ_mul] at hi
      rw [c3 i (by omega), b3 i (by omega)]
    · intro r k hr hk
      match r with
      | 0 =>
        rw [c3 _ (by omega), b3 _ (by omega)]
        exact hH 0 k hr hk
      | r + 1 =>
        have := c4 r k (by omega) hk
        rw [show d + (r + 1) * D.pad + k = d + D.pad + r * D.pad + k by rw [Nat.succ_mul]; omega, this,
          List.getElem?_drop, show D.n2 + (r * D.n2 + k) = (r + 1) * D.n2 + k by rw [Nat.succ_mul]; omega]

/-- A row moved towards the beginning of the memory. -/
theorem moveRow_ok : ∀ (k d res : Nat) (mem : List G), res ≤ d → d + k ≤ mem.length →
    ∃ mem', moveRow k d res mem = .ok mem' ∧ mem'.length = mem.length ∧
      (∀ i, i < res ∨ d + k ≤ i → mem'[i]? = mem[i]?) ∧ ∀ i < k, mem'[res + i]? = mem[d + i]? := by
  intro k
  induction k with
  | zero => intro d res mem _ _; exact ⟨mem, rfl, rfl, fun _ _ => rfl, fun i hi => absurd hi (Nat.not_lt_zero i)⟩
  | succ k ih =>
    intro d res mem hr hd
    have hd' : d < mem.length := by omega
    have hset : setR mem res mem[d] = .ok (mem.set res mem[d]) := setR_ok.2 ⟨by omega, rfl⟩
    obtain ⟨m, h1, h2, h3, h4⟩ := ih (d + 1) (res + 1) (mem.set res mem[d]) (by omega)
      (by rw [List.length_set]; omega)
    refine ⟨m, ?_, by rw [h2, List.length_set], ?_, ?_⟩
    · rw [moveRow, getR_of_lt hd', ok_bind, hset, ok_bind, h1]
    · intro i hi
      rw [h3 i (by omega), List.getElem?_set_ne (by omega)]
    · intro i hi
      match i with
      | 0 =>
        rw [h3 (res + 0) (by omega), Nat.add_zero, List.getElem?_set_self (by omega), Nat.add_zero,
          List.getElem?_eq_getElem hd']
      | i + 1 =>
        rw [show res + (i + 1) = res + 1 + i by omega, h4 i (by omega), List.getElem?_set_ne (by omega),
          show d + 1 + i = d + (i + 1) by omega]

theorem moveRows_ok (D : Dims) : ∀ (rows d res : Nat) (mem img : List G), res ≤ d → d + rows * D.pad ≤ mem.length →
    img.length = rows * D.n2 → Holds D d rows mem img →
    ∃ mem', moveRows D rows d res mem = .ok mem' ∧ mem'.length = mem.length ∧
      (∀ i < res, mem'[i]? = mem[i]?) ∧ ∀ i < rows * D.n2, mem'[res + i]? = img[i]? := by
  have hp := D.lt_pad
  intro rows
  induction rows with
  | zero =>
    intro d res mem img _ _ _ _
    exact ⟨mem, rfl, rfl, fun _ _ => rfl, fun i hi => by rw [Nat.zero_mul] at hi; exact absurd hi (Nat.not_lt_zero i)⟩
  | succ rows ih =>
    intro d res mem img hres hmem himg hH
    rw [Nat.succ_mul] at hmem himg
    obtain ⟨m1, a1, a2, a3, a4⟩ := moveRow_ok D.n2 d res mem hres (by omega)
    obtain ⟨m2, b1, b2, b3, -⟩ := zeroRow_ok (D.pad - D.n2) (d + D.n2) m1 (by omega)
    obtain ⟨m3, c1, c2, c3, c4⟩ := ih (d + D.pad) (res + D.n2) m2 (img.drop D.n2) (by omega) (by omega)
      (by rw [List.length_drop]; omega) (by
        intro r k hr hk
        have h1 := hH (r + 1) k (by omega) hk
        have h2 : r * D.pad + k < rows * D.pad := row_lt hr (by omega)
        rw [Nat.succ_mul, Nat.succ_mul] at h1
        rw [b3 _ (by omega), a3 _ (by omega), show d + D.pad + r * D.pad + k = d + (r * D.pad + D.pad) + k by omega, h1,
          List.getElem?_drop]
        congr 1
        omega)
    refine ⟨m3, by rw [moveRows, a1, ok_bind, b1, ok_bind, c1], by omega, ?_, ?_⟩
    · intro i hi
      rw [c3 i (by omega), b3 i (by omega), a3 i (by omega)]
    · intro i hi
      rw [Nat.succ_mul] at hi
      by_cases hlt : i < D.n2
      · rw [c3 _ (by omega), b3 _ (by omega), a4 i hlt]
        have := hH 0 i (by omega) hlt
        rwa [Nat.zero_mul, Nat.add_zero, Nat.zero_mul, Nat.zero_add] at this
      · have := c4 (i - D.n2) (by omega)
        rw [show res + i = res + D.n2 + (i - D.n2) by omega, this, List.getElem?_drop]
        congr 1
        omega

/-- The memory holds the image `img`, padded. -/
def HoldsImage (D : Dims) (mem img : List G) : Prop :=
  mem.length = D.memsize ∧ img.length = D.size ∧
    ∀ r k, r < D.n0 * D.n1 → k < D.n2 → mem[r * D.pad + k]? = img[r * D.n2 + k]?

theorem HoldsImage.holds {D : Dims} {mem img : List G} (h : HoldsImage D mem img) :
    Holds D 0 (D.n0 * D.n1) mem img := by
  intro r k hr hk
  rw [Nat.zero_add]
  exact h.2.2 r k hr hk

/-- An image read from bytes is stored row by row, the input is left after its last pixel, and `mean` is
the mean of the pixels. Bytes are taken between 0 and 255. -/
theorem C95_fill (D : Dims) (mem : List G) (img rest : List Int) (hm : mem.length = D.memsize)
    (hi : img.length = D.size) (hb : ∀ c ∈ img, -128 ≤ c ∧ c < 128) :
    ∃ mem', fillImageUchar D mem (img ++ rest) =
        .ok ⟨mem', rest, (img.map (fun c => ((if c < 0 then c + 256 else c : Int) : G))).sum / (D.size : G)⟩ ∧
      HoldsImage D mem' (img.map (fun c => ((if c < 0 then c + 256 else c : Int) : G))) := by
  have hconv : ∀ c ∈ img, (((uchar c : Int) : G)) = ((if c < 0 then c + 256 else c : Int) : G) := by
    intro c hc
    have := hb c hc
    congr 1
    unfold uchar
    split <;> omega
  have hN : D.n0 * D.n1 * D.n2 = img.length := by rw [hi]; rfl
  obtain ⟨m, h1, h2, -, h4⟩ := fillRows_ok D (fun c => ((uchar c : Int) : G)) true (D.n0 * D.n1) 0 mem (img ++ rest) 0
    (by rw [hN]; simp) (by rw [Nat.zero_add, hm]; exact Nat.le_refl _)
  refine ⟨m, ?_, by rw [h2, hm], by rw [List.length_map, hi], ?_⟩
  · unfold fillImageUchar
    rw [h1, ok_bind, hN, List.drop_left, List.take_left, zero_add, List.map_congr_left hconv]
    rfl
  · intro r k hr hk
    have := h4 r k hr hk
    have hlt : r * D.n2 + k < img.length := by
      rw [← hN]
      exact row_lt hr hk
    rw [Nat.zero_add] at this
    rw [this, List.getElem?_map, List.getElem?_append_left hlt, List.getElem?_map, List.getElem?_eq_getElem hlt,
      Option.map_some, Option.map_some, hconv _ (List.getElem_mem hlt)]

/-- What `copyImage` gives is the image, and the memory still holds it. -/
theorem C95_copy (D : Dims) (mem img : List G) (h : HoldsImage D mem img) :
    ∃ mem', copyImage D true mem = .ok (mem', img) ∧ HoldsImage D mem' img := by
  obtain ⟨m, h1, h2, -, h4⟩ := copyRows_ok D (D.n0 * D.n1) 0 mem [] img
    (by rw [Nat.zero_add, h.1]; exact Nat.le_refl _) h.2.1 h.holds
  refine ⟨m, ?_, by rw [h2, h.1], h.2.1, ?_⟩
  · unfold copyImage
    rw [if_pos rfl, h1, List.nil_append]
  · intro r k hr hk
    have := h4 r k hr hk
    rwa [Nat.zero_add] at this

/-- `unpad` moves the rows inside the memory without losing a pixel. -/
theorem C95_unpad (D : Dims) (mem img : List G) (h : HoldsImage D mem img) :
    ∃ mem', unpad D true mem = .ok (mem', false) ∧ mem'.length = D.memsize ∧ mem'.take D.size = img ∧
      copyImage D false mem' = .ok (mem', img) ∧ unpad D false mem' = .ok (mem', false) := by
  obtain ⟨m, h1, h2, -, h4⟩ := moveRows_ok D (D.n0 * D.n1) 0 0 mem img (Nat.le_refl _)
    (by rw [Nat.zero_add, h.1]; exact Nat.le_refl _) h.2.1 h.holds
  have hle : D.size ≤ m.length := by
    rw [h2, h.1]
    exact Nat.mul_le_mul_left _ (Nat.le_of_lt D.lt_pad)
  have htake : m.take D.size = img := by
    apply List.ext_getElem?
    intro i
    by_cases hi : i < D.size
    · rw [List.getElem?_take_of_lt hi]
      have := h4 i hi
      rwa [Nat.zero_add] at this
    · rw [List.getElem?_eq_none (by rw [List.length_take]; omega), List.getElem?_eq_none (by rw [h.2.1]; omega)]
  refine ⟨m, ?_, by rw [h2, h.1], htake, ?_, rfl⟩
  · unfold unpad
    rw [if_pos rfl, h1]
    rfl
  · unfold copyImage
    rw [if_neg (by decide), if_pos hle, htake]

/-- The slices of a series of files loaded one after the other give the image made of these slices, and
its mean. -/
theorem C95_slices (D : Dims) (junk : G) (mem : List G) (slices : List (List G)) (hm : mem.length = D.memsize)
    (hl : slices.length = D.n0) (hs : ∀ s ∈ slices, s.length = D.n1 * D.n2) :
    ∃ mem', setTimeStep D true junk mem slices = .ok (mem', slices.flatten.sum / (D.size : G)) ∧
      HoldsImage D mem' slices.flatten := by
  have hp := D.lt_pad
  have hflat : ∀ z ≤ slices.length, (slices.take z).flatten.length = z * (D.n1 * D.n2) := by
    intro z hz
    induction z with
    | zero => simp
    | succ z ih =>
      have hz' : z < slices.length := by omega
      rw [List.take_succ_eq_append_getElem hz', List.flatten_append, List.length_append, ih (by omega), Nat.succ_mul]
      simp [hs _ (List.getElem_mem hz')]
  have key : ∀ z ≤ D.n0, ∃ m, (List.range z).foldlM (fun (s : List G × G) (z : Nat) => do
      let img ← getR slices z
      let f ← fillSlice D z s.1 s.2 img
      pure (f.mem, f.mean)) (mem, 0) = .ok (m, (slices.take z).flatten.sum) ∧ m.length = D.memsize ∧
      Holds D 0 (z * D.n1) m (slices.take z).flatten := by
    intro z
    induction z with
    | zero =>
      intro _
      exact ⟨mem, by simp [pure_eq_ok], hm, fun r k hr _ => by rw [Nat.zero_mul] at hr; exact absurd hr (Nat.not_lt_zero r)⟩
    | succ z ih =>
      intro hz
      obtain ⟨m, h1, h2, h3⟩ := ih (by omega)
      have hzl : z < slices.length := by omega
      have hsl := hs _ (List.getElem_mem hzl)
      have hdz : z * (D.n1 * D.half) * 2 = z * D.n1 * D.pad := by
        unfold Dims.pad
        ring
      have hzz : z * D.n1 * D.pad + D.n1 * D.pad ≤ D.memsize := by
        unfold Dims.memsize
        rw [← Nat.add_mul, ← Nat.succ_mul]
        exact Nat.mul_le_mul_right _ (Nat.mul_le_mul_right _ hz)
      obtain ⟨m', a1, a2, a3, a4⟩ := fillRows_ok D (id : G → G) false D.n1 (z * D.n1 * D.pad) m slices[z]
        (slices.take z).flatten.sum (by rw [hsl]) (by rw [h2]; exact hzz)
      refine ⟨m', ?_, by rw [a2, h2], ?_⟩
      · rw [List.range_succ, foldlM_append_ok]
        refine ⟨_, h1, ?_⟩
        rw [List.foldlM_cons, getR_of_lt hzl, ok_bind]
        unfold fillSlice
        rw [hdz, a1, ← hsl, List.take_length, List.map_id, List.take_succ_eq_append_getElem hzl]
        simp [pure_eq_ok]
        rw [List.sum_take_succ _ z (by rw [List.length_map]; exact hzl), List.getElem_map]
      · intro r k hr hk
        rw [Nat.succ_mul] at hr
        rw [List.take_succ_eq_append_getElem hzl, List.flatten_append, Nat.zero_add]
        by_cases hlt : r < z * D.n1
        · have h5 := h3 r k hlt hk
          have h6 : r * D.pad + k < z * D.n1 * D.pad := row_lt hlt (by omega)
          rw [Nat.zero_add] at h5
          rw [a3 _ (Or.inl h6), h5, List.getElem?_append_left]
          rw [hflat z (by omega), ← Nat.mul_assoc]
          exact row_lt hlt hk
        · have h5 := a4 (r - z * D.n1) k (by omega) hk
          have h7 : r * D.pad = z * D.n1 * D.pad + (r - z * D.n1) * D.pad := by
            rw [← Nat.add_mul]
            congr 1
            omega
          have h8 : r * D.n2 = z * D.n1 * D.n2 + (r - z * D.n1) * D.n2 := by
            rw [← Nat.add_mul]
            congr 1
            omega
          rw [h7, h5, List.map_id, List.getElem?_append_right, hflat z (by omega), h8, ← Nat.mul_assoc]
          · rw [show z * D.n1 * D.n2 + (r - z * D.n1) * D.n2 + k - z * D.n1 * D.n2 = (r - z * D.n1) * D.n2 + k by omega]
            simp
          · rw [hflat z (by omega), h8, ← Nat.mul_assoc]
            omega
  obtain ⟨m, h1, h2, h3⟩ := key D.n0 (Nat.le_refl _)
  rw [← hl, List.take_length, hl] at h1 h3
  refine ⟨m, ?_, h2, ?_, ?_⟩
  · unfold setTimeStep
    rw [if_pos rfl, h1, ok_bind]
    rfl
  · have := hflat slices.length (Nat.le_refl _)
    rw [List.take_length] at this
    rw [this, hl, ← Nat.mul_assoc]
    rfl
  · intro r k hr hk
    have := h3 r k hr hk
    rwa [Nat.zero_add] at this

/-- The pixels of `fillImage` are right. Its `mean` is not: the sum starts from a value that is not
initialised, and `SerieTracker` divides once more. -/
theorem C95_mean_counterexample (D : Dims) (junk : G) (mem img : List G) (hm : mem.length = D.memsize)
    (hi : img.length = D.size) :
    ∃ mem', fillImage D junk mem img = .ok ⟨mem', [], (junk + img.sum) / (D.size : G)⟩ ∧ HoldsImage D mem' img ∧
      setTimeStep D false junk mem [img] = .ok (mem', (junk + img.sum) / (D.size : G) / (D.size : G)) := by
  have hN : D.n0 * D.n1 * D.n2 = img.length := by rw [hi]; rfl
  obtain ⟨m, h1, h2, -, h4⟩ := fillRows_ok D (id : G → G) false (D.n0 * D.n1) 0 mem img junk
    (by rw [hN]) (by rw [Nat.zero_add, hm]; exact Nat.le_refl _)
  have hfill : fillImage D junk mem img = .ok ⟨m, [], (junk + img.sum) / (D.size : G)⟩ := by
    unfold fillImage
    rw [h1, ok_bind, hN, List.drop_length, List.take_length, List.map_id]
    rfl
  refine ⟨m, hfill, ⟨by rw [h2, hm], hi, ?_⟩, ?_⟩
  · intro r k hr hk
    have := h4 r k hr hk
    rwa [Nat.zero_add, List.map_id] at this
  · unfold setTimeStep
    rw [if_neg (by decide)]
    have : getR [img] 0 = .ok img := rfl
    rw [this, ok_bind, hfill]
    rfl

/-- Two rows of three pixels; rows of four numbers. -/
example : fillImageUchar (G := ℚ) ⟨1, 2, 3⟩ (List.replicate 8 9) [1, 2, -1, 4, 5, 6, 7] =
      .ok ⟨[1, 2, 255, 0, 4, 5, 6, 0], [7], 273 / 6⟩ ∧
    unpad (G := ℚ) ⟨1, 2, 3⟩ true [1, 2, 255, 0, 4, 5, 6, 0] = .ok ([1, 2, 255, 4, 5, 6, 6, 0], false) := by
  constructor
  · simp [fillImageUchar, fillRows, fillRow, padRow, zeroRow, setR, Dims.pad, Dims.half, Dims.size, uchar, bind, Except.bind]
    norm_num
  · simp [unpad, moveRows, moveRow, zeroRow, setR, getR, Dims.pad, Dims.half, bind, Except.bind]

example : HoldsImage (G := ℚ) ⟨1, 2, 3⟩ [1, 2, 255, 0, 4, 5, 6, 0] [1, 2, 255, 4, 5, 6] := by
  refine ⟨rfl, rfl, ?_⟩
  intro r k hr hk
  have hr' : r < 2 := hr
  have hk' : k < 3 := hk
  interval_cases r <;> interval_cases k <;> rfl

end Tracker
end Colloids
