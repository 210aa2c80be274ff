import Verif.Files.Model
import Verif.CommonLemmas
import Mathlib.Data.List.Basic
import Mathlib.Data.List.Induction

/-! # Helper lemmas on file series -/

namespace Colloids
namespace Files

/-! ### Decimal numbers -/

theorem decDigit_toNat {n : Nat} (h : n < 10) : (decDigit n).toNat = '0'.toNat + n := by
  match n, h with
  | 0, _ | 1, _ | 2, _ | 3, _ | 4, _ | 5, _ | 6, _ | 7, _ | 8, _ | 9, _ => rfl

theorem isDig_iff (c : Char) : isDig c = true ↔ ∃ n, n < 10 ∧ c = decDigit n := by
  unfold isDig
  simp only [Bool.and_eq_true, decide_eq_true_eq]
  constructor
  · rintro ⟨h1, h2⟩
    have h1' : 48 ≤ c.toNat := h1
    have h2' : c.toNat ≤ 57 := h2
    refine ⟨c.toNat - 48, by omega, ?_⟩
    unfold decDigit
    have : '0'.toNat + (c.toNat - 48) = c.toNat := by
      show 48 + (c.toNat - 48) = c.toNat
      omega
    rw [this, Char.ofNat_toNat]
  · rintro ⟨n, h, rfl⟩
    match n, h with
    | 0, _ | 1, _ | 2, _ | 3, _ | 4, _ | 5, _ | 6, _ | 7, _ | 8, _ | 9, _ => decide

theorem value_append_single (d : List Char) (c : Char) :
    value (d ++ [c]) = 10 * value d + (c.toNat - '0'.toNat) := by
  simp [value, List.foldl_append]

theorem dec_digits (n : Nat) : ∀ c ∈ dec n, isDig c = true := by
  induction n using dec.induct with
  | case1 n h =>
    rw [dec, if_pos h]
    intro c hc
    rw [List.mem_singleton] at hc
    exact (isDig_iff c).2 ⟨n, h, hc⟩
  | case2 n h ih =>
    rw [dec, if_neg h]
    intro c hc
    rcases List.mem_append.1 hc with hc | hc
    · exact ih c hc
    · rw [List.mem_singleton] at hc
      exact (isDig_iff c).2 ⟨n % 10, Nat.mod_lt _ (by omega), hc⟩

theorem value_dec (n : Nat) : value (dec n) = n := by
  induction n using dec.induct with
  | case1 n h =>
    rw [dec, if_pos h]
    have := decDigit_toNat h
    simp [value, this]
  | case2 n h ih =>
    rw [dec, if_neg h, value_append_single, ih, decDigit_toNat (Nat.mod_lt _ (by omega))]
    omega

theorem dec_ne_nil (n : Nat) : dec n ≠ [] := by
  rw [dec]; split <;> simp

theorem dec_length_le (n w : Nat) (hw : 0 < w) (h : n < 10 ^ w) : (dec n).length ≤ w := by
  induction w generalizing n with
  | zero => omega
  | succ w ih =>
    rw [dec]
    split
    · simp
    · rename_i hn
      have hw' : 0 < w := by
        rcases Nat.eq_zero_or_pos w with rfl | h0
        · simp at h; omega
        · exact h0
      have := ih (n / 10) hw' (by rw [Nat.div_lt_iff_lt_mul (by omega)]; rw [Nat.pow_succ] at h; exact h)
      simp
      omega

theorem value_replicate_zero (k : Nat) (d : List Char) :
    value (List.replicate k '0' ++ d) = value d := by
  induction k with
  | zero => simp
  | succ k ih =>
    rw [List.replicate_succ, List.cons_append]
    have : value ('0' :: (List.replicate k '0' ++ d)) = value (List.replicate k '0' ++ d) := rfl
    rw [this, ih]

theorem value_pad (w n : Nat) : value (pad w n) = n := by
  unfold pad
  rw [value_replicate_zero, value_dec]

theorem pad_digits (w n : Nat) : ∀ c ∈ pad w n, isDig c = true := by
  intro c hc
  unfold pad at hc
  rcases List.mem_append.1 hc with hc | hc
  · rw [(List.mem_replicate.1 hc).2]; decide
  · exact dec_digits n c hc

theorem pad_length (w n : Nat) : (pad w n).length = max w (dec n).length := by
  unfold pad
  simp
  omega

theorem pad_ne_nil (w n : Nat) : pad w n ≠ [] := by
  unfold pad
  simp [dec_ne_nil]

theorem dec_zero : dec 0 = ['0'] := by
  rw [dec]; rfl

theorem pad_zero (w : Nat) : pad w 0 = List.replicate (max w 1) '0' := by
  unfold pad
  rw [dec_zero]
  have : max w 1 = (w - 1) + 1 := by omega
  rw [this, List.replicate_succ']
  rfl

theorem pad_max (w n : Nat) : pad (max w 1) n = pad w n := by
  unfold pad
  have : 0 < (dec n).length := List.length_pos_of_ne_nil (dec_ne_nil n)
  congr 2
  omega

theorem dec_lt (d : List Char) (hd : ∀ c ∈ d, isDig c = true) : value d < 10 ^ d.length := by
  induction d using List.reverseRecOn with
  | nil => simp [value]
  | append_singleton d c ih =>
    have h1 := ih (fun c hc => hd c (by simp [hc]))
    obtain ⟨n, hn, rfl⟩ := (isDig_iff c).1 (hd c (by simp))
    rw [value_append_single, decDigit_toNat hn]
    simp only [List.length_append, List.length_singleton, Nat.pow_succ]
    omega

/-- A padded number is determined by its width and its value. -/
theorem digits_eq (d e : List Char) (hd : ∀ c ∈ d, isDig c = true) (he : ∀ c ∈ e, isDig c = true)
    (hl : d.length = e.length) (hv : value d = value e) : d = e := by
  induction d using List.reverseRecOn generalizing e with
  | nil => exact (List.eq_nil_of_length_eq_zero hl.symm).symm
  | append_singleton d c ih =>
    rcases List.eq_nil_or_concat e with rfl | ⟨e', c', rfl⟩
    · simp at hl
    · obtain ⟨n, hn, rfl⟩ := (isDig_iff c).1 (hd c (by simp))
      obtain ⟨n', hn', rfl⟩ := (isDig_iff c').1 (he c' (by simp))
      rw [List.concat_eq_append] at *
      rw [value_append_single, value_append_single, decDigit_toNat hn, decDigit_toNat hn'] at hv
      have e1 : n = n' := by omega
      have e2 : value d = value e' := by omega
      rw [ih e' (fun c hc => hd c (by simp [hc])) (fun c hc => he c (by simp [hc]))
        (by simpa using hl) e2, e1]

theorem pad_value (d : List Char) (hd : ∀ c ∈ d, isDig c = true) (hn : d ≠ []) :
    pad d.length (value d) = d := by
  apply digits_eq _ _ (pad_digits _ _) hd
  · rw [pad_length]
    have := dec_length_le (value d) d.length (List.length_pos_of_ne_nil hn) (dec_lt d hd)
    omega
  · exact value_pad _ _

/-! ### Searches -/

theorem find_reverse_range (n : Nat) (p : Nat → Bool) (i : Nat) :
    (List.range n).reverse.find? p = some i ↔ i < n ∧ p i = true ∧ ∀ j, i < j → j < n → p j = false := by
  induction n with
  | zero => simp
  | succ n ih =>
    rw [List.range_succ, List.reverse_append, List.reverse_singleton, List.singleton_append,
      List.find?_cons]
    cases hp : p n with
    | true =>
      simp only [Option.some.injEq]
      constructor
      · rintro rfl; exact ⟨by omega, hp, fun j h1 h2 => by omega⟩
      · rintro ⟨h1, h2, h3⟩
        by_cases e : i = n
        · exact e.symm
        · have := h3 n (by omega) (by omega); rw [hp] at this; cases this
    | false =>
      simp only
      rw [ih]
      constructor
      · rintro ⟨h1, h2, h3⟩
        refine ⟨by omega, h2, fun j hj hj' => ?_⟩
        by_cases e : j = n
        · rw [e]; exact hp
        · exact h3 j hj (by omega)
      · rintro ⟨h1, h2, h3⟩
        have : i ≠ n := by rintro rfl; rw [hp] at h2; cases h2
        exact ⟨by omega, h2, fun j hj hj' => h3 j hj (by omega)⟩

theorem rfind_none (s t : List Char) : rfind s t = none ↔ ¬ t <:+: s := by
  unfold rfind
  rw [List.find?_eq_none]
  constructor
  · intro h
    rintro ⟨a, b, rfl⟩
    refine h a.length (by simp; omega) ?_
    rw [List.isPrefixOf_iff_prefix]
    rw [List.append_assoc, List.drop_left]
    exact ⟨b, rfl⟩
  · intro h i _ hp
    rw [List.isPrefixOf_iff_prefix] at hp
    exact h (hp.isInfix.trans (List.drop_suffix i s).isInfix)

/-- The last occurrence of a token. -/
theorem rfind_last (h t r : List Char) (hl : ¬ t <:+: (h ++ t ++ r).drop (h.length + 1)) :
    rfind (h ++ t ++ r) t = some h.length := by
  unfold rfind
  rw [find_reverse_range]
  refine ⟨by simp; omega, ?_, ?_⟩
  · rw [List.isPrefixOf_iff_prefix, List.append_assoc, List.drop_left]; exact ⟨r, rfl⟩
  · intro j hj _
    rw [Bool.eq_false_iff]
    intro hp
    rw [List.isPrefixOf_iff_prefix] at hp
    apply hl
    have : (h ++ t ++ r).drop j = ((h ++ t ++ r).drop (h.length + 1)).drop (j - (h.length + 1)) := by
      rw [List.drop_drop]; congr 1; omega
    rw [this] at hp
    exact hp.isInfix.trans (List.drop_suffix _ _).isInfix

theorem findNonDigit_split (a d : List Char) (c : Char) (r : List Char)
    (hd : ∀ c ∈ d, isDig c = true) (hc : isDig c = false) :
    findNonDigit (a ++ d ++ c :: r) a.length = some (a.length + d.length) := by
  unfold findNonDigit
  rw [List.append_assoc, List.drop_left]
  have : (d ++ c :: r).findIdx? (fun c => !isDig c) = some d.length := by
    induction d with
    | nil => simp [List.findIdx?_cons, hc]
    | cons x d ih =>
      rw [List.cons_append, List.findIdx?_cons, hd x (by simp)]
      simp [ih (fun c hc => hd c (by simp [hc]))]
  rw [this]
  rfl

theorem findNonDigit_none (a d : List Char) (hd : ∀ c ∈ d, isDig c = true) :
    findNonDigit (a ++ d) a.length = none := by
  unfold findNonDigit
  rw [List.drop_left]
  have : d.findIdx? (fun c => !isDig c) = none := by
    rw [List.findIdx?_eq_none_iff]
    intro c hc
    simp [hd c hc]
  rw [this]
  rfl

/-! ### Format -/

theorem parseFmt_lits (s r : List Char) (hs : '%' ∉ s) (fuel : Nat) (hf : s.length ≤ fuel) :
    parseFmt fuel (s ++ r) = (parseFmt (fuel - s.length) r).map (s.map Piece.lit ++ ·) := by
  induction s generalizing fuel with
  | nil => cases h : parseFmt fuel r <;> simp [h, Except.map]
  | cons c s ih =>
    cases fuel with
    | zero => simp at hf
    | succ fuel =>
      have hc : c ≠ '%' := fun e => hs (by simp [e])
      rw [List.cons_append, parseFmt.eq_def]
      simp only
      rw [if_neg hc, ih (fun h => hs (by simp [h])) fuel (by simpa using hf)]
      simp only [List.length_cons, Nat.add_sub_add_right]
      cases h : parseFmt (fuel - s.length) r <;> rfl

theorem parseFmt_plain (s : List Char) (hs : '%' ∉ s) (fuel : Nat) (hf : s.length ≤ fuel) :
    parseFmt fuel s = .ok (s.map Piece.lit) := by
  have := parseFmt_lits s [] hs fuel hf
  rw [List.append_nil] at this
  rw [this]
  have : parseFmt (fuel - s.length) [] = .ok [] := by
    cases fuel - s.length <;> rfl
  rw [this]
  simp [Except.map]

theorem takeWhile_dec (n : Nat) (r : List Char) :
    (dec n ++ '|' :: r).takeWhile isDig = dec n ∧ (dec n ++ '|' :: r).dropWhile isDig = '|' :: r := by
  have h := dec_digits n
  constructor
  · rw [List.takeWhile_append_of_pos h]
    simp [List.takeWhile_cons, show isDig '|' = false by decide]
  · rw [List.dropWhile_append_of_pos h]
    simp [List.dropWhile_cons, show isDig '|' = false by decide]

/-- The pattern of a series. -/
def patternOf (h tok : List Char) (w : Nat) (t : List Char) : List Piece :=
  (h ++ tok).map Piece.lit ++ Piece.arg w :: t.map Piece.lit

theorem parse_formatString (h tok t : List Char) (w fuel : Nat) (h1 : '%' ∉ h) (h2 : '%' ∉ tok)
    (h3 : '%' ∉ t) (hf : fuel = (formatString h tok t w).length) :
    parseFmt fuel (formatString h tok t w) = .ok (patternOf h tok w t) := by
  unfold formatString at hf ⊢
  have e : h ++ tok ++ ['%', '|', '0'] ++ dec w ++ ['|'] ++ t
      = (h ++ tok) ++ ('%' :: '|' :: '0' :: (dec w ++ '|' :: t)) := by simp
  rw [e] at hf ⊢
  rw [parseFmt_lits _ _ (by simp [h1, h2]) _ (by simp at hf ⊢; omega)]
  obtain ⟨k, hk⟩ : ∃ k, fuel - (h ++ tok).length = k + 1 ∧ t.length ≤ k := by
    refine ⟨fuel - (h ++ tok).length - 1, ?_, ?_⟩ <;> simp at hf ⊢ <;> omega
  rw [hk.1, parseFmt]
  simp only [if_true]
  have ht := takeWhile_dec w t
  split
  · rename_i s' hs
    rw [ht.2] at hs
    cases hs
    rw [parseFmt_plain t h3 k hk.2, ht.1, value_dec]
    simp [Except.map, patternOf]
  · rename_i hs
    exact absurd ht.2 (hs _)

theorem render_pattern (h tok : List Char) (w : Nat) (t : List Char) (n : Nat) :
    render (patternOf h tok w t) n = .ok (h ++ tok ++ pad w n ++ t) := by
  have h1 : ∀ s : List Char, (s.map Piece.lit).filter Piece.isArg = [] := by
    intro s
    rw [List.filter_eq_nil_iff]
    intro p hp
    obtain ⟨c, _, rfl⟩ := List.mem_map.1 hp
    simp [Piece.isArg]
  have h2 : ∀ s : List Char, (s.map Piece.lit).flatMap (Piece.print n) = s := by
    intro s
    induction s with
    | nil => rfl
    | cons c s ih => rw [List.map_cons, List.flatMap_cons, ih]; rfl
  unfold render patternOf
  rw [List.filter_append, h1, List.filter_cons_of_pos (by rfl), h1, if_pos (by simp), List.flatMap_append,
    List.flatMap_cons, h2, h2]
  simp [Piece.print]

/-- Construction from a name made of a head, the token, digits and a tail. -/
theorem make_eq (h tok d : List Char) (c : Char) (r : List Char) (size offset : Nat)
    (hd : ∀ c ∈ d, isDig c = true) (hc : isDig c = false)
    (hl : ¬ tok <:+: (h ++ tok ++ d ++ c :: r).drop (h.length + 1))
    (h1 : '%' ∉ h) (h2 : '%' ∉ tok) (h3 : '%' ∉ c :: r) :
    make (h ++ tok ++ d ++ c :: r) tok size offset
      = .ok ⟨patternOf h tok d.length (c :: r), tok, size, offset⟩ := by
  unfold make
  have e1 : rfind (h ++ tok ++ d ++ c :: r) tok = some h.length := by
    rw [List.append_assoc (h ++ tok)] at hl ⊢
    exact rfind_last h tok (d ++ c :: r) hl
  have e2 : findNonDigit (h ++ tok ++ d ++ c :: r) (h.length + tok.length)
      = some (h.length + tok.length + d.length) := by
    have := findNonDigit_split (h ++ tok) d c r hd hc
    rw [List.length_append] at this
    exact this
  rw [e1]
  simp only
  rw [e2]
  simp only
  have e3 : (h ++ tok ++ d ++ c :: r).take h.length = h := by
    rw [List.append_assoc, List.append_assoc, List.take_left]
  have e4 : (h ++ tok ++ d ++ c :: r).drop (h.length + tok.length + d.length) = c :: r := by
    have := List.drop_left (l₁ := h ++ tok ++ d) (l₂ := c :: r)
    simpa [Nat.add_assoc] using this
  rw [e3, e4, show h.length + tok.length + d.length - (h.length + tok.length) = d.length by omega,
    parse_formatString h tok (c :: r) d.length _ h1 h2 h3 rfl]
  rfl

/-! ### Occurrences of a token around other characters -/

theorem infix_around (tok x y : List Char) (c : Char) (hc : c ∉ tok) :
    tok <:+: x ++ c :: y → tok <:+: x ∨ tok <:+: y := by
  rintro ⟨a, b, h⟩
  rw [List.append_assoc] at h
  rcases List.append_eq_append_iff.1 h with ⟨u, hu, hv⟩ | ⟨u, hu, hv⟩
  · -- x = a ++ u, tok ++ b = u ++ c :: y
    rcases List.append_eq_append_iff.1 hv with ⟨v, hv1, hv2⟩ | ⟨v, hv1, hv2⟩
    · left
      exact ⟨a, v, by rw [hu, hv1, List.append_assoc]⟩
    · cases v with
      | nil =>
        left
        rw [List.append_nil] at hv1
        exact ⟨a, [], by rw [hu, hv1, List.append_nil]⟩
      | cons e v =>
        exfalso
        rw [List.cons_append] at hv2
        cases hv2
        exact hc (by rw [hv1]; simp)
  · cases u with
    | nil =>
      rw [List.nil_append] at hv
      cases tok with
      | nil => left; exact List.nil_infix
      | cons e tok =>
        rw [List.cons_append] at hv
        cases hv
        exact absurd (by simp) hc
    | cons e u =>
      rw [List.cons_append] at hv
      cases hv
      right
      exact ⟨u, b, by simp⟩

theorem infix_around_list (tok x z y : List Char) (hz : z ≠ []) (hc : ∀ c ∈ z, c ∉ tok) :
    tok <:+: x ++ z ++ y → tok <:+: x ∨ tok <:+: y := by
  intro h
  cases z with
  | nil => exact absurd rfl hz
  | cons c z =>
    have h' : tok <:+: x ++ c :: (z ++ y) := by simpa using h
    rcases infix_around tok x (z ++ y) c (hc c (by simp)) h' with h | h
    · exact .inl h
    · clear h'
      right
      have : ∀ z : List Char, (∀ c ∈ z, c ∉ tok) → tok <:+: z ++ y → tok <:+: y := by
        intro z
        induction z with
        | nil => intro _ h; exact h
        | cons c z ih =>
          intro hc h
          rcases infix_around tok [] (z ++ y) c (hc c (by simp)) h with h | h
          · rw [List.eq_nil_of_infix_nil h]; exact List.nil_infix
          · exact ih (fun c h => hc c (by simp [h])) h
      exact this z (fun c h => hc c (by simp [h])) h

/-- With zeros after the token, the token is the last one if it is not in the tail. -/
theorem not_infix_zeros (h tok t : List Char) (w : Nat) (h0 : '0' ∉ tok) (ht : tok ≠ [])
    (hn : ¬ tok <:+: t) :
    ¬ tok <:+: (h ++ tok ++ List.replicate (max w 1) '0' ++ t).drop (h.length + 1) := by
  cases tok with
  | nil => exact absurd rfl ht
  | cons e tok =>
    have : (h ++ e :: tok ++ List.replicate (max w 1) '0' ++ t).drop (h.length + 1)
        = tok ++ List.replicate (max w 1) '0' ++ t := by
      have h1 := List.drop_left (l₁ := h ++ [e]) (l₂ := tok ++ List.replicate (max w 1) '0' ++ t)
      simpa using h1
    rw [this]
    intro hi
    rcases infix_around_list (e :: tok) tok _ t (by simp)
      (fun c hc => by rw [(List.mem_replicate.1 hc).2]; exact h0) hi with hi | hi
    · have := hi.length_le; simp at this; omega
    · exact hn hi

theorem zeros_digits (k : Nat) : ∀ c ∈ List.replicate k '0', isDig c = true := by
  intro c hc
  rw [(List.mem_replicate.1 hc).2]; decide

theorem not_infix_tail {h tok d : List Char} {t : List Char} (ht : tok ≠ [])
    (hl : ¬ tok <:+: (h ++ tok ++ d ++ t).drop (h.length + 1)) : ¬ tok <:+: t := by
  intro hi
  apply hl
  have : (h ++ tok ++ d ++ t).drop (h.length + 1) = (tok ++ d).drop 1 ++ t := by
    rw [List.append_assoc h, List.append_assoc h, ← List.drop_drop, List.drop_left]
    cases tok with
    | nil => exact absurd rfl ht
    | cons e tok => simp
  rw [this]
  exact hi.trans (List.suffix_append _ _).isInfix

end Files
end Colloids
