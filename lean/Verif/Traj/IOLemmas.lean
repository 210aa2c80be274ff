import Verif.Traj.Model
import Verif.CommonLemmas

/-! # Helper lemmas for the text format of trajectories -/

namespace Colloids

theorem showNat_digit {n : Nat} {c : Char} (h : c ∈ showNat n) : c.isDigit = true :=
  Nat.isDigit_of_mem_toDigits (by omega) (by omega) h

theorem showNat_ne_nil (n : Nat) : showNat n ≠ [] := Nat.toDigits_ne_nil

theorem digit_not_space {c : Char} (h : c.isDigit = true) : isSpace c = false := by
  unfold isSpace
  by_contra hc
  simp only [Bool.not_eq_false, Bool.or_eq_true, beq_iff_eq] at hc
  rcases hc with ((rfl | rfl) | rfl) | rfl <;> revert h <;> decide

theorem takeWhile_digits (n : Nat) (r : List Char) (hr : ∀ c ∈ r.head?, c.isDigit = false) :
    (showNat n ++ r).takeWhile Char.isDigit = showNat n ∧
    (showNat n ++ r).dropWhile Char.isDigit = r := by
  have key : ∀ l : List Char, (∀ c ∈ l, c.isDigit = true) →
      (l ++ r).takeWhile Char.isDigit = l ∧ (l ++ r).dropWhile Char.isDigit = r := by
    intro l hl
    induction l with
    | nil =>
      cases r with
      | nil => simp
      | cons c r => have := hr c (by simp); simp [this]
    | cons x xs ih =>
      have hx := hl x (by simp)
      have := ih (fun c hc => hl c (by simp [hc]))
      simp [hx, this]
  exact key _ (fun c hc => showNat_digit hc)

theorem readNat_show (ws : List Char) (hws : ∀ c ∈ ws, isSpace c = true) (n : Nat) (hn : n < szMod)
    (r : List Char) (hr : ∀ c ∈ r.head?, c.isDigit = false) (old : Nat) :
    ({ rest := ws ++ (showNat n ++ r) } : IStream).readNat old =
      ({ rest := r, eof := r.isEmpty, fail := false }, n) := by
  have hdrop : (ws ++ (showNat n ++ r)).dropWhile isSpace = showNat n ++ r := by
    induction ws with
    | nil =>
      cases hsn : showNat n with
      | nil => exact absurd hsn (showNat_ne_nil n)
      | cons c cs =>
        have : c.isDigit = true := showNat_digit (n := n) (by rw [hsn]; simp)
        simp [digit_not_space this]
    | cons x xs ih =>
      have hx := hws x (by simp)
      rw [List.cons_append, List.dropWhile_cons_of_pos hx]
      exact ih (fun c hc => hws c (by simp [hc]))
  obtain ⟨h1, h2⟩ := takeWhile_digits n r hr
  have hv : Nat.ofDigitChars 10 (showNat n) 0 = n := Nat.ofDigitChars_ten_toDigits
  have hne : (showNat n ++ r).isEmpty = false := by
    cases hsn : showNat n with
    | nil => exact absurd hsn (showNat_ne_nil n)
    | cons c cs => simp
  have hne2 : (showNat n).isEmpty = false := by
    cases hsn : showNat n with
    | nil => exact absurd hsn (showNat_ne_nil n)
    | cons c cs => simp
  unfold IStream.readNat
  simp only [IStream.good, Bool.not_false, Bool.and_self, Bool.not_true, Bool.false_eq_true,
    if_false, hdrop, hne, h1, h2, hne2, hv, hn, if_true]

/-- The text of the steps after the first one. -/
def tailText (steps : List Nat) : List Char := (steps.map fun s => '\t' :: showNat s).flatten

theorem tailText_head (steps : List Nat) : ∀ c ∈ (tailText steps).head?, c.isDigit = false := by
  cases steps with
  | nil => simp [tailText]
  | cons s ss => simp [tailText]

theorem tailText_empty {steps : List Nat} : (tailText steps).isEmpty = true ↔ steps = [] := by
  cases steps <;> simp [tailText]

theorem readLoop_tail (steps : List Nat) : ∀ (fuel : Nat), steps.length < fuel →
    (∀ s ∈ steps, s < szMod) → ∀ (old : Nat) (tr : Traj),
    Traj.readLoop fuel { rest := tailText steps, eof := (tailText steps).isEmpty } old tr =
      .ok { tr with steps := tr.steps ++ steps } := by
  induction steps with
  | nil =>
    intro fuel hf _ old tr
    cases fuel with
    | zero => omega
    | succ fuel => simp [Traj.readLoop, tailText]
  | cons s ss ih =>
    intro fuel hf hb old tr
    cases fuel with
    | zero => omega
    | succ fuel =>
      have hne : (tailText (s :: ss)).isEmpty = false := by
        simp [tailText]
      have htxt : tailText (s :: ss) = ['\t'] ++ (showNat s ++ tailText ss) := by
        simp [tailText]
      have hr := readNat_show ['\t'] (by simp [isSpace]) s (hb s (by simp)) (tailText ss)
        (tailText_head ss) old
      rw [Traj.readLoop, hne]
      simp only [Bool.false_eq_true, if_false]
      rw [htxt, hr]
      simp only [Bool.false_and, Bool.false_eq_true, if_false]
      rw [ih fuel (by simp at hf; omega) (fun x hx => hb x (by simp [hx]))]
      simp [Traj.pushBack]

theorem showNat_length_pos (n : Nat) : 0 < (showNat n).length :=
  List.length_pos_iff.2 (showNat_ne_nil n)

theorem tailText_length (steps : List Nat) : steps.length ≤ (tailText steps).length := by
  induction steps with
  | nil => simp
  | cons s ss ih =>
    simp only [tailText, List.map_cons, List.flatten_cons, List.length_append, List.length_cons] at *
    omega

/-- Reading back a written line. -/
theorem read_line (s0 : Nat) (ss : List Nat) (h0 : s0 < szMod) (hs : ∀ s ∈ ss, s < szMod) (tr : Traj) :
    Traj.read (showNat s0 ++ tailText ss) tr = .ok { tr with steps := tr.steps ++ (s0 :: ss) } := by
  unfold Traj.read
  rw [Traj.readLoop]
  simp only [Bool.false_eq_true, if_false]
  have hr := readNat_show [] (by simp) s0 h0 (tailText ss) (tailText_head ss) 0
  rw [List.nil_append] at hr
  rw [hr]
  simp only [Bool.false_and, Bool.false_eq_true, if_false]
  rw [readLoop_tail ss _ _ hs]
  · simp [Traj.pushBack]
  · have := tailText_length ss
    simp only [List.length_append]
    omega

theorem line_no_newline (s0 : Nat) (ss : List Nat) : ∀ c ∈ showNat s0 ++ tailText ss, c ≠ '\n' := by
  have hd : ∀ n, ∀ c ∈ showNat n, c ≠ '\n' := by
    intro n c hc hcn
    have := showNat_digit hc
    subst hcn; revert this; decide
  intro c hc
  rcases List.mem_append.1 hc with hc | hc
  · exact hd s0 c hc
  · simp only [tailText, List.mem_flatten, List.mem_map] at hc
    obtain ⟨l, ⟨s, -, rfl⟩, hc⟩ := hc
    rcases List.mem_cons.1 hc with rfl | hc
    · decide
    · exact hd s c hc

theorem getline_line (line r : List Char) (h : ∀ c ∈ line, c ≠ '\n') :
    ({ rest := line ++ '\n' :: r } : IStream).getline = ({ rest := r }, line) := by
  have h1 : (line ++ '\n' :: r).takeWhile (· != '\n') = line ∧
      (line ++ '\n' :: r).dropWhile (· != '\n') = '\n' :: r := by
    induction line with
    | nil => simp
    | cons x xs ih =>
      have hx := h x (by simp)
      have := ih (fun c hc => h c (by simp [hc]))
      simp [hx, this]
  unfold IStream.getline
  simp [IStream.good, h1]

/-- Text of one trajectory line pair, as written. -/
def trajText (start s0 : Nat) (ss : List Nat) : List Char :=
  showNat start ++ '\n' :: (showNat s0 ++ tailText ss)

/-- Text of a list of trajectories given as (start, first step, other steps). -/
def filesText (l : List (Nat × Nat × List Nat)) : List Char :=
  (l.map fun x => trajText x.1 x.2.1 x.2.2 ++ ['\n']).flatten

theorem write_traj (start s0 : Nat) (ss : List Nat) :
    Traj.write ⟨start, s0 :: ss⟩ = .ok (trajText start s0 ss) := by
  simp [Traj.write, getR, trajText, tailText]

theorem write_all (l : List (Nat × Nat × List Nat)) : ∀ out : List Char,
    (l.map fun x => (⟨x.1, x.2.1 :: x.2.2⟩ : Traj)).foldlM
      (fun out tr => do return out ++ (← Traj.write tr) ++ ['\n']) out = .ok (out ++ filesText l) := by
  induction l with
  | nil => intro out; simp [filesText]
  | cons x xs ih =>
    intro out
    rw [List.map_cons, List.foldlM_cons, write_traj]
    simp only [ok_bind]
    simp only [pure_eq_ok] at ih ⊢
    simp only [ok_bind]
    rw [ih]
    simp [filesText]

theorem readLoop_all (l : List (Nat × Nat × List Nat)) : ∀ (fuel : Nat), l.length < fuel →
    (∀ x ∈ l, x.1 < szMod ∧ x.2.1 < szMod ∧ ∀ s ∈ x.2.2, s < szMod) → ∀ (old : Nat) (acc : List Traj),
    (let (s, start) := ({ rest := filesText l } : IStream).readNat old
     TrajIndex.readLoop fuel s start acc) =
      .ok (acc ++ l.map fun x => (⟨x.1, x.2.1 :: x.2.2⟩ : Traj)) := by
  induction l with
  | nil =>
    intro fuel hf _ old acc
    cases fuel with
    | zero => omega
    | succ fuel => simp [filesText, IStream.readNat, IStream.good, TrajIndex.readLoop]
  | cons x xs ih =>
    intro fuel hf hb old acc
    obtain ⟨start, s0, ss⟩ := x
    obtain ⟨b1, b2, b3⟩ := hb _ (List.mem_cons_self ..)
    simp only at b1 b2 b3
    cases fuel with
    | zero => omega
    | succ fuel =>
      have htxt : filesText ((start, s0, ss) :: xs) =
          [] ++ (showNat start ++ ('\n' :: ((showNat s0 ++ tailText ss) ++ '\n' :: filesText xs))) := by
        simp [filesText, trajText]
      rw [htxt, readNat_show [] (by simp) start b1 _ (by simp) old]
      simp only [List.isEmpty_cons]
      rw [TrajIndex.readLoop]
      simp only [IStream.good, Bool.not_false, Bool.and_self, Bool.not_true, Bool.false_eq_true,
        if_false, IStream.get]
      rw [getline_line _ _ (line_no_newline s0 ss)]
      simp only
      rw [read_line s0 ss b2 b3]
      simp only [ok_bind]
      have := ih fuel (by simp at hf; omega) (fun y hy => hb y (by simp [hy])) start
        (acc ++ [{ start := start, steps := [] ++ s0 :: ss }])
      simp only [Traj.empty] at *
      rw [this]
      simp

end Colloids
