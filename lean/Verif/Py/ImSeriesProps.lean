import Verif.CommonLemmas
import Verif.Files.Lemmas
import Verif.Py.ImSeriesModel

/-! # C258: series of images named after one of them -/

namespace Colloids
namespace Py
namespace ImSeries

open Files (isDig dec pad value)

theorem last_none (s : List Char) (h : '_' ∉ s) : lastUnderscore s = none := by
  induction s with
  | nil => rfl
  | cons c s ih =>
    rw [List.mem_cons, not_or] at h
    rw [lastUnderscore, ih h.2]
    simp only
    rw [if_neg fun hc => h.1 hc.symm]

theorem last_eq (a b : List Char) (h : '_' ∉ b) : lastUnderscore (a ++ '_' :: b) = some (a, b) := by
  induction a with
  | nil =>
    rw [List.nil_append, lastUnderscore, last_none b h]
    simp
  | cons c a ih => rw [List.cons_append, lastUnderscore, ih]

theorem takeWhile_digits (d r : List Char) (hd : ∀ c ∈ d, isDig c = true) (hr : ∀ c, r.head? = some c → isDig c = false) :
    (d ++ r).takeWhile isDig = d ∧ (d ++ r).dropWhile isDig = r := by
  induction d with
  | nil =>
    cases r with
    | nil => exact ⟨rfl, rfl⟩
    | cons c r =>
      have := hr c rfl
      simp [this]
  | cons c d ih =>
    obtain ⟨h1, h2⟩ := ih fun x hx => hd x (List.mem_cons_of_mem _ hx)
    have hc := hd c List.mem_cons_self
    rw [List.cons_append, List.takeWhile_cons, List.dropWhile_cons, if_pos hc, if_pos hc, h1, h2]
    exact ⟨rfl, rfl⟩

/-- A name that the scripts understand: something, an underscore, digits, and something without underscore that is not a digit at first. -/
structure Name (a d r : List Char) : Prop where
  digits : ∀ c ∈ d, isDig c = true
  rest : ∀ c, r.head? = some c → isDig c = false
  underscore : '_' ∉ r
  percent : '%' ∉ a ∧ '%' ∉ r

theorem pattern_eq {a d r : List Char} (h : Name a d r) :
    pattern (a ++ '_' :: (d ++ r)) = .ok (a ++ ['_', '%'] ++ (['0'] ++ dec d.length ++ ['d']) ++ r) := by
  have hu : '_' ∉ d ++ r := by
    rw [List.mem_append, not_or]
    exact ⟨fun hm => absurd (h.digits _ hm) (by decide), h.underscore⟩
  rw [pattern, groups, last_eq _ _ hu]
  simp only
  rw [(takeWhile_digits d r h.digits h.rest).1, (takeWhile_digits d r h.digits h.rest).2]

theorem format_plain (s r : List Char) (hs : '%' ∉ s) (fuel : Nat) (arg : Option Nat) :
    format (s.length + fuel) (s ++ r) arg = (format fuel r arg).map (s ++ ·) := by
  induction s with
  | nil =>
    rw [List.length_nil, Nat.zero_add, List.nil_append]
    cases format fuel r arg <;> rfl
  | cons c s ih =>
    rw [List.mem_cons, not_or] at hs
    rw [List.length_cons, show s.length + 1 + fuel = (s.length + fuel) + 1 by omega, List.cons_append, format, if_neg fun hc => hs.1 hc.symm, ih hs.2]
    cases format fuel r arg <;> rfl

theorem value_zero_cons (l : List Char) : value ('0' :: l) = value l := by
  have := Files.value_replicate_zero 1 l
  simpa using this

theorem format_number (w fuel t : Nat) (r out : List Char) (hr : format fuel r none = .ok out) :
    format (fuel + 1) ('%' :: ((['0'] ++ dec w ++ ['d']) ++ r)) (some t) = .ok (pad w t ++ out) := by
  have hsplit := takeWhile_digits (['0'] ++ dec w) ('d' :: r) (by
    intro c hc
    rcases List.mem_append.1 hc with hc | hc
    · rw [List.mem_singleton.1 hc]
      decide
    · exact Files.dec_digits w c hc) (by
    intro c hc
    rw [List.head?_cons, Option.some.injEq] at hc
    rw [← hc]
    decide)
  have hs : (['0'] ++ dec w ++ ['d']) ++ r = (['0'] ++ dec w) ++ 'd' :: r := by simp
  rw [hs]
  rw [format, if_pos rfl, conv, if_neg (by simp), hsplit.1, hsplit.2, convNum, ok_bind]
  simp only
  rw [hr, ok_bind, convert, if_pos (by simp), List.cons_append, List.nil_append, value_zero_cons, Files.value_dec]
  rfl

/-- The names given by the pattern of a name. -/
theorem nameOf_eq {a r : List Char} (ha : '%' ∉ a) (hr : '%' ∉ r) (w t : Nat) :
    nameOf (a ++ ['_', '%'] ++ (['0'] ++ dec w ++ ['d']) ++ r) t = .ok (a ++ '_' :: (pad w t ++ r)) := by
  have h1 : a ++ ['_', '%'] ++ (['0'] ++ dec w ++ ['d']) ++ r = (a ++ ['_']) ++ '%' :: ((['0'] ++ dec w ++ ['d']) ++ r) := by simp
  have hp : '%' ∉ a ++ ['_'] := by
    rw [List.mem_append, not_or]
    exact ⟨ha, by decide⟩
  have hlen : (a ++ ['_', '%'] ++ (['0'] ++ dec w ++ ['d']) ++ r).length = (a ++ ['_']).length + ((r.length + ((dec w).length + 2)) + 1) := by
    simp only [List.length_append, List.length_cons, List.length_nil]
    omega
  have hplain : format (r.length + ((dec w).length + 2)) r none = .ok r := by
    have := format_plain r [] hr ((dec w).length + 2) none
    rw [List.append_nil, format] at this
    rw [this]
    simp [Except.map]
  rw [nameOf, hlen, h1, format_plain _ _ hp, format_number w _ t r r hplain]
  simp [Except.map]

/-- C258. The series of a name: the same name with other numbers of the same width at least, and this very name for its own number. -/
theorem C258_names_partial {a d r : List Char} (h : Name a d r) :
    ∃ p, pattern (a ++ '_' :: (d ++ r)) = .ok p ∧ (∀ t, nameOf p t = .ok (a ++ '_' :: (pad d.length t ++ r))) ∧
      (d ≠ [] → nameOf p (value d) = .ok (a ++ '_' :: (d ++ r))) := by
  refine ⟨_, pattern_eq h, fun t => nameOf_eq h.percent.1 h.percent.2 _ t, fun hd => ?_⟩
  rw [nameOf_eq h.percent.1 h.percent.2, Files.pad_value d h.digits hd]

theorem last_none_iff (s : List Char) : lastUnderscore s = none ↔ '_' ∉ s := by
  induction s with
  | nil => simp [lastUnderscore]
  | cons c s ih =>
    rw [lastUnderscore]
    cases h : lastUnderscore s with
    | some p =>
      have : '_' ∈ s := by
        by_contra hn
        rw [ih.2 hn] at h
        exact absurd h (by simp)
      simp [this]
    | none =>
      have hs := ih.1 h
      by_cases hc : c = '_'
      · simp [hc]
      · simp [hc, hs, Ne.symm hc]

/-- C258. The assertion fails exactly for the names without underscore. -/
theorem C258_assert (name : List Char) : pattern name = .error .logicError ↔ '_' ∉ name := by
  rw [← last_none_iff, pattern, groups]
  cases lastUnderscore name <;> simp

example : '_' ∉ "image000.tif".toList ∧ '_' ∈ "image_000.tif".toList := by decide

/-- C258. The images that are read are those from number 0 to the last one before a gap, in order. -/
theorem C258_frames_partial {a d r : List Char} (h : Name a d r) (isfile : List Char → Bool) (n : Nat)
    (hin : ∀ t < n, isfile (a ++ '_' :: (pad d.length t ++ r)) = true) (hout : isfile (a ++ '_' :: (pad d.length n ++ r)) = false) :
    ∃ p, pattern (a ++ '_' :: (d ++ r)) = .ok p ∧
      ∀ extra, frames isfile p (n + 1 + extra) 0 = .ok ((List.range n).map fun t => a ++ '_' :: (pad d.length t ++ r)) := by
  obtain ⟨p, h1, h2, _⟩ := C258_names_partial h
  refine ⟨p, h1, fun extra => ?_⟩
  have key : ∀ k t, t + k = n → frames isfile p (k + 1 + extra) t = .ok ((List.range' t k).map fun t => a ++ '_' :: (pad d.length t ++ r)) := by
    intro k
    induction k with
    | zero =>
      intro t ht
      have ht' : t = n := by omega
      subst ht'
      rw [show 0 + 1 + extra = extra + 1 by omega, frames, h2, ok_bind, if_neg (by rw [hout]; decide)]
      rfl
    | succ k ih =>
      intro t ht
      rw [show k + 1 + 1 + extra = (k + 1 + extra) + 1 by omega, frames, h2, ok_bind, if_pos (hin t (by omega)), ih (t + 1) (by omega), ok_bind]
      rw [List.range'_succ, List.map_cons]
      rfl
  rw [key n 0 (by omega), List.range_eq_range']

/-- C258, the part that is false. Nothing is read of a series that begins at 1, even if the image that is given exists. -/
theorem C258_first_counterexample {a d r : List Char} (h : Name a d r) (isfile : List Char → Bool)
    (h0 : isfile (a ++ '_' :: (pad d.length 0 ++ r)) = false) :
    ∃ p, pattern (a ++ '_' :: (d ++ r)) = .ok p ∧ ∀ fuel, frames isfile p (fuel + 1) 0 = .ok [] := by
  obtain ⟨p, h1, h2, _⟩ := C258_names_partial h
  refine ⟨p, h1, fun fuel => ?_⟩
  rw [frames, h2, ok_bind, if_neg (by rw [h0]; decide)]
  rfl

/-- C258, the part that is false. The number must be after the last underscore: if something else is, as in `image_001_red.tif`, the name that is given is not
in its series. -/
theorem C258_last_counterexample (a r : List Char) (hr : ∀ c, r.head? = some c → isDig c = false) (hu : '_' ∉ r) (hp : '%' ∉ a ∧ '%' ∉ r) :
    ∃ p, pattern (a ++ '_' :: r) = .ok p ∧ ∀ t, nameOf p t ≠ .ok (a ++ '_' :: r) := by
  have h : Name a [] r := ⟨by simp, hr, hu, hp⟩
  obtain ⟨p, h1, h2, _⟩ := C258_names_partial h
  refine ⟨p, h1, fun t ht => ?_⟩
  rw [h2 t, Except.ok.injEq] at ht
  have hl := congrArg List.length ht
  have hne := List.length_pos_iff.2 (Files.pad_ne_nil ([] : List Char).length t)
  simp only [List.length_append, List.length_cons] at hl
  omega

/-- C258, the part that is false. A percent sign before the underscore is an error. -/
theorem C258_percent_counterexample {a d r : List Char} (hd : ∀ c ∈ d, isDig c = true) (hr : ∀ c, r.head? = some c → isDig c = false) (hu : '_' ∉ r)
    (ha : '%' ∉ a) : ∃ p, pattern (a ++ '%' :: '_' :: (d ++ r)) = .ok p ∧ ∀ t, nameOf p t = .error .invalidArgument := by
  have hu' : '_' ∉ d ++ r := by
    rw [List.mem_append, not_or]
    exact ⟨fun hm => absurd (hd _ hm) (by decide), hu⟩
  have hl : lastUnderscore (a ++ '%' :: '_' :: (d ++ r)) = some (a ++ ['%'], d ++ r) := by
    have := last_eq (a ++ ['%']) (d ++ r) hu'
    simpa using this
  refine ⟨_, by rw [pattern, groups, hl], fun t => ?_⟩
  rw [(takeWhile_digits d r hd hr).1, (takeWhile_digits d r hd hr).2, nameOf]
  generalize hx : (['0'] ++ dec d.length ++ ['d']) ++ r = x
  have h1 : a ++ ['%'] ++ ['_', '%'] ++ (['0'] ++ dec d.length ++ ['d']) ++ r = a ++ '%' :: '_' :: '%' :: x := by
    rw [← hx]
    simp
  have h2 : (a ++ '%' :: '_' :: '%' :: x).length = a.length + ((x.length + 2) + 1) := by
    simp only [List.length_append, List.length_cons]
  rw [h1, h2, format_plain a _ ha, format, if_pos rfl]
  simp [conv, convNum, isDig, Except.map, error_bind]

/-- `images/sample_012.tif`. -/
example : Name "images/sample".toList "012".toList ".tif".toList :=
  ⟨by decide, by intro c hc; simp at hc; subst hc; decide, by decide, by decide, by decide⟩

/-- `image_001_red.tif`. -/
example : (∀ c, "red.tif".toList.head? = some c → isDig c = false) ∧ '_' ∉ "red.tif".toList ∧ '%' ∉ "image_001".toList ∧ '%' ∉ "red.tif".toList :=
  ⟨by intro c hc; simp at hc; subst hc; decide, by decide, by decide, by decide⟩

end ImSeries
end Py
end Colloids
