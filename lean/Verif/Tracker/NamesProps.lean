import Verif.Tracker.NamesModel
import Verif.Files.Lemmas
import Mathlib.Data.List.TakeWhile

/-! # The names of the images of a series: C103 -/

namespace Colloids
namespace Tracker

open Files

/-! ## Lemmas -/

theorem underscore_skip (x : Char) (d l : List Char) (hd : '_' ∉ d) (h : ['_', x] <:+: d ++ l) :
    ['_', x] <:+: l := by
  induction d with
  | nil => exact h
  | cons y d ih =>
    rw [List.cons_append, List.infix_cons_iff] at h
    rcases h with h | h
    · rw [List.cons_prefix_cons] at h
      exact absurd List.mem_cons_self (h.1 ▸ hd)
    · exact ih (fun hm => hd (List.mem_cons_of_mem _ hm)) h

theorem underscore_other (x y : Char) (l : List Char) (hxy : x ≠ y) (hy : y ≠ '_')
    (h : ['_', x] <:+: '_' :: y :: l) : ['_', x] <:+: l := by
  rw [List.infix_cons_iff] at h
  rcases h with h | h
  · rw [List.cons_prefix_cons, List.cons_prefix_cons] at h
    exact absurd h.2.1 hxy
  · exact underscore_skip x [y] l (by simpa using hy.symm) h

theorem digits_no_underscore {d : List Char} (hd : ∀ c ∈ d, isDig c = true) : '_' ∉ d :=
  fun h => absurd (hd _ h) (by decide)

theorem digits_no_percent {d : List Char} (hd : ∀ c ∈ d, isDig c = true) : '%' ∉ d :=
  fun h => absurd (hd _ h) (by decide)

theorem digits_no_nul {d : List Char} (hd : ∀ c ∈ d, isDig c = true) : nul ∉ d :=
  fun h => absurd (hd _ h) (by decide)

/-- The last occurrence of `_x` when it does not occur in what follows the digits. -/
theorem rfind_underscore (x : Char) (hx : x ≠ '_') (h r : List Char) (hr : ¬ ['_', x] <:+: r) :
    rfind (h ++ ['_', x] ++ r) ['_', x] = some h.length := by
  apply rfind_last
  intro hi
  apply hr
  have : (h ++ ['_', x] ++ r).drop (h.length + 1) = [x] ++ r := by
    rw [List.append_assoc, ← List.drop_drop, List.drop_left]; rfl
  rw [this] at hi
  exact underscore_skip x [x] r (by simpa using hx.symm) hi

theorem parseFmtD_lits (s r : List Char) (hs : '%' ∉ s) (fuel : Nat) (hf : s.length ≤ fuel) :
    parseFmtD fuel (s ++ r) = (parseFmtD (fuel - s.length) r).map (s.map Piece.lit ++ ·) := by
  induction s generalizing fuel with
  | nil =>
    simp only [List.nil_append, List.length_nil, Nat.sub_zero, List.map_nil]
    cases parseFmtD fuel r <;> rfl
  | cons c s ih =>
    obtain ⟨fuel, rfl⟩ : ∃ n, fuel = n + 1 := ⟨fuel - 1, by simp at hf; omega⟩
    have hc : c ≠ '%' := fun e => hs (by simp [e])
    rw [List.cons_append, parseFmtD.eq_def]
    simp only
    rw [if_neg hc, ih (fun hm => hs (List.mem_cons_of_mem _ hm)) fuel (by simpa using hf)]
    simp only [List.length_cons, Nat.add_sub_add_right, List.map_cons, List.cons_append]
    cases parseFmtD (fuel - s.length) r <;> rfl

theorem parseFmtD_directive (x : Char) (hx : x ≠ '%') (w : Nat) (r : List Char) (fuel : Nat) :
    parseFmtD (fuel + 3) (directive x (some w) ++ r)
      = (parseFmtD fuel r).map ([.lit '_', .lit x, .arg w] ++ ·) := by
  have h1 : directive x (some w) ++ r = ['_', x] ++ ('%' :: '|' :: '0' :: (dec w ++ 'd' :: '|' :: r)) := by
    simp [directive]
  rw [h1, parseFmtD_lits _ _ (by simp [hx.symm]) _ (by simp)]
  have h2 : (dec w ++ 'd' :: '|' :: r).takeWhile isDig = dec w
      ∧ (dec w ++ 'd' :: '|' :: r).dropWhile isDig = 'd' :: '|' :: r := by
    have hd : isDig 'd' = false := by decide
    rw [List.takeWhile_append_of_pos (dec_digits w), List.dropWhile_append_of_pos (dec_digits w)]
    simp [hd]
  have h3 : fuel + 3 - ['_', x].length = fuel + 1 := by simp
  rw [h3, parseFmtD.eq_def]
  simp only [if_true, h2.1, h2.2, value_dec]
  cases parseFmtD fuel r <;> rfl

theorem parseFmtD_plain (s : List Char) (hs : '%' ∉ s) (fuel : Nat) (hf : s.length ≤ fuel) :
    parseFmtD fuel s = .ok (s.map Piece.lit) := by
  have := parseFmtD_lits s [] hs fuel hf
  rw [List.append_nil] at this
  rw [this]
  cases fuel - s.length <;> simp [parseFmtD, Except.map]

theorem renderArgs_lits (s : List Char) (l : List Piece) (args : List Nat) :
    renderArgs (s.map Piece.lit ++ l) args = (renderArgs l args).map (s ++ ·) := by
  induction s with
  | nil =>
    simp only [List.map_nil, List.nil_append]
    cases renderArgs l args <;> rfl
  | cons c s ih =>
    rw [List.map_cons, List.cons_append, renderArgs, ih]
    cases renderArgs l args <;> rfl

theorem renderArgs_plain (s : List Char) : renderArgs (s.map Piece.lit) [] = .ok s := by
  have := renderArgs_lits s [] []
  rw [List.append_nil] at this
  rw [this]
  simp [renderArgs, Except.map]

/-- What a pattern prints before its part that is not text. -/
def printed (x : Char) : Option Nat → Nat → List Char
  | none, _ => []
  | some w, n => ['_', x] ++ pad w n

theorem directive_length (x : Char) (w : Nat) : 3 ≤ (directive x (some w)).length := by
  simp [directive]

/-- The name that a pattern stands for. -/
theorem fileName_eq (hd : List Char) (zd td : Option Nat) (tl : List Char) (z t : Nat)
    (h1 : '%' ∉ hd) (h2 : '%' ∉ tl) :
    fileName ⟨td.isSome, zd.isSome, hd ++ directive 'z' zd ++ directive 't' td ++ tl⟩ z t
      = .ok (cStr (hd ++ printed 'z' zd z ++ printed 't' td t ++ tl)) := by
  unfold fileName
  simp only [List.append_assoc]
  rw [parseFmtD_lits _ _ h1 _ (by simp)]
  cases zd with
  | none =>
    cases td with
    | none =>
      simp only [directive, List.nil_append]
      rw [parseFmtD_plain _ h2 _ (by simp)]
      simp [Except.map, printed, ok_bind, renderArgs_lits, renderArgs_plain, pure_eq_ok]
    | some w =>
      have hl := directive_length 't' w
      simp only [directive.eq_1, List.nil_append]
      obtain ⟨k, hk⟩ : ∃ k, (hd ++ (directive 't' (some w) ++ tl)).length - hd.length = k + 3
          ∧ tl.length ≤ k :=
        ⟨(directive 't' (some w)).length - 3 + tl.length, by simp only [List.length_append]; omega, by omega⟩
      rw [hk.1, parseFmtD_directive 't' (by decide), parseFmtD_plain _ h2 _ hk.2]
      simp [Except.map, printed, ok_bind, renderArgs_lits, renderArgs_plain, pure_eq_ok, renderArgs]
  | some v =>
    have hv := directive_length 'z' v
    cases td with
    | none =>
      simp only [directive.eq_1, List.nil_append]
      obtain ⟨k, hk⟩ : ∃ k, (hd ++ (directive 'z' (some v) ++ tl)).length - hd.length = k + 3
          ∧ tl.length ≤ k :=
        ⟨(directive 'z' (some v)).length - 3 + tl.length, by simp only [List.length_append]; omega, by omega⟩
      rw [hk.1, parseFmtD_directive 'z' (by decide), parseFmtD_plain _ h2 _ hk.2]
      simp [Except.map, printed, ok_bind, renderArgs_lits, renderArgs_plain, pure_eq_ok, renderArgs]
    | some w =>
      have hl := directive_length 't' w
      obtain ⟨k, hk⟩ : ∃ k, (hd ++ (directive 'z' (some v) ++ (directive 't' (some w) ++ tl))).length
            - hd.length = (k + 3) + 3 ∧ tl.length ≤ k :=
        ⟨(directive 'z' (some v)).length - 3 + ((directive 't' (some w)).length - 3) + tl.length,
          by simp only [List.length_append]; omega, by omega⟩
      rw [hk.1, parseFmtD_directive 'z' (by decide), parseFmtD_directive 't' (by decide),
        parseFmtD_plain _ h2 _ hk.2]
      simp [Except.map, printed, ok_bind, renderArgs_lits, renderArgs_plain, pure_eq_ok, renderArgs]

theorem cStr_plain (s : List Char) (h : nul ∉ s) : cStr s = s := by
  unfold cStr
  rw [List.takeWhile_eq_self_iff]
  intro c hc
  simp only [bne_iff_ne, ne_eq]
  rintro rfl
  exact h hc

theorem parseTime_some (a d : List Char) (c : Char) (r : List Char) (nt : Nat)
    (hd : ∀ c ∈ d, isDig c = true) (hc : isDig c = false) (hr : ¬ ['_', 't'] <:+: c :: r) :
    parseTime (a ++ ['_', 't'] ++ d ++ c :: r) nt = .ok (some d.length, a, c :: r) := by
  unfold parseTime
  have h1 : rfind (a ++ ['_', 't'] ++ d ++ c :: r) ['_', 't'] = some a.length := by
    rw [List.append_assoc (a ++ ['_', 't'])]
    exact rfind_underscore 't' (by decide) a _
      (fun h => hr (underscore_skip _ _ _ (digits_no_underscore hd) h))
  have h2 := findNonDigit_split (a ++ ['_', 't']) d c r hd hc
  rw [List.length_append] at h2
  simp only [h1]
  rw [show a.length + 2 = a.length + ['_', 't'].length from rfl, h2]
  simp only [Except.ok.injEq, Prod.mk.injEq, Option.some.injEq]
  refine ⟨by simp, by simp, ?_⟩
  rw [← List.length_append, ← List.length_append, List.drop_left]

theorem parseTime_none (name : List Char) (nt : Nat) (h : ¬ ['_', 't'] <:+: name) (hn : nt ≤ 1) :
    parseTime name nt = .ok (none, name, []) := by
  unfold parseTime
  rw [(rfind_none _ _).2 h]
  simp [Nat.not_lt.2 hn]

theorem parseDepth_some (a d : List Char) (c : Char) (r : List Char) (nz : Nat) (hd tl : List Char)
    (hdig : ∀ c ∈ d, isDig c = true) (hc : isDig c = false) (hr : ¬ ['_', 'z'] <:+: c :: r) :
    parseDepth (a ++ ['_', 'z'] ++ d ++ c :: r) nz hd tl
      = .ok (some d.length, resizeStr hd a.length, if tl.isEmpty then c :: r else tl) := by
  unfold parseDepth
  have h1 : rfind (a ++ ['_', 'z'] ++ d ++ c :: r) ['_', 'z'] = some a.length := by
    rw [List.append_assoc (a ++ ['_', 'z'])]
    exact rfind_underscore 'z' (by decide) a _
      (fun h => hr (underscore_skip _ _ _ (digits_no_underscore hdig) h))
  have h2 := findNonDigit_split (a ++ ['_', 'z']) d c r hdig hc
  rw [List.length_append] at h2
  simp only [h1]
  rw [show a.length + 2 = a.length + ['_', 'z'].length from rfl, h2]
  simp only [Except.ok.injEq, Prod.mk.injEq, Option.some.injEq]
  refine ⟨by simp, trivial, ?_⟩
  rw [← List.length_append, ← List.length_append, List.drop_left]

theorem parseDepth_none (name : List Char) (nz : Nat) (hd tl : List Char) (h : ¬ ['_', 'z'] <:+: name)
    (hn : nz ≤ 1) : parseDepth name nz hd tl = .ok (none, hd, tl) := by
  unfold parseDepth
  rw [(rfind_none _ _).2 h]
  simp [Nat.not_lt.2 hn]

theorem resizeStr_take (a b : List Char) : resizeStr (a ++ b) a.length = a := by
  simp [resizeStr]

/-! ## Statements -/

/-- `m` is the number `n` in decimal digits, filled with zeros to the length of `d`. -/
structure Numeral (d : List Char) (n : Nat) (m : List Char) : Prop where
  digits : ∀ c ∈ m, isDig c = true
  value : value m = n
  long : d.length ≤ m.length
  exact : d ≠ [] → n < 10 ^ d.length → m.length = d.length

theorem numeral_pad (d : List Char) (n : Nat) : Numeral d n (pad d.length n) where
  digits := pad_digits _ _
  value := value_pad _ _
  long := by rw [pad_length]; omega
  exact hd hlt := by
    rw [pad_length]
    have := dec_length_le _ _ (List.length_pos_of_ne_nil hd) hlt
    omega

/-- Text that neither the format nor a C string treats specially. -/
def Plain (s : List Char) : Prop := '%' ∉ s ∧ nul ∉ s

/-- The end of a name: it starts with something else than a digit and has no `_z` and no `_t`. -/
structure Tail (s : List Char) : Prop where
  start : ∃ c r, s = c :: r ∧ isDig c = false
  noTime : ¬ ['_', 't'] <:+: s
  noDepth : ¬ ['_', 'z'] <:+: s
  plain : Plain s

/-- **C103** (names): a name with digits after `_z` and after `_t` gives the names of the slices and time steps:
the same text around the two numbers, with at least as many digits as in the name given. -/
theorem C103_names (h dz dt tl : List Char) (nz nt : Nat) (hh : Plain h) (hz : ∀ c ∈ dz, isDig c = true)
    (ht : ∀ c ∈ dt, isDig c = true) (htl : Tail tl) :
    ∃ p, parseName (h ++ ['_', 'z'] ++ dz ++ ['_', 't'] ++ dt ++ tl) nz nt = .ok p
      ∧ ∀ z t, ∃ mz mt, fileName p z t = .ok (h ++ ['_', 'z'] ++ mz ++ ['_', 't'] ++ mt ++ tl)
        ∧ Numeral dz z mz ∧ Numeral dt t mt := by
  obtain ⟨c, r, rfl, hc⟩ := htl.start
  have e1 := parseTime_some (h ++ ['_', 'z'] ++ dz) dt c r nt ht hc htl.noTime
  have hno : ¬ ['_', 'z'] <:+: '_' :: ('t' :: dt ++ c :: r) := by
    intro hi
    exact htl.noDepth (underscore_skip _ _ _ (digits_no_underscore ht)
      (underscore_other 'z' 't' _ (by decide) (by decide) hi))
  have e2 := parseDepth_some h dz '_' ('t' :: dt ++ c :: r) nz (h ++ ['_', 'z'] ++ dz) (c :: r) hz
    (by decide) hno
  have e3 : h ++ ['_', 'z'] ++ dz ++ '_' :: ('t' :: dt ++ c :: r)
      = h ++ ['_', 'z'] ++ dz ++ ['_', 't'] ++ dt ++ c :: r := by simp
  rw [e3] at e2
  have e4 : resizeStr (h ++ ['_', 'z'] ++ dz) h.length = h := by
    rw [List.append_assoc]; exact resizeStr_take _ _
  rw [e4] at e2
  refine ⟨⟨true, true, h ++ directive 'z' (some dz.length) ++ directive 't' (some dt.length) ++ c :: r⟩, ?_,
    fun z t => ⟨pad dz.length z, pad dt.length t, ?_, numeral_pad _ _, numeral_pad _ _⟩⟩
  · unfold parseName
    rw [e1, ok_bind]
    simp only [e2, ok_bind]
    rfl
  · have := fileName_eq h (some dz.length) (some dt.length) (c :: r) z t hh.1 htl.plain.1
    simp only [Option.isSome_some] at this
    rw [this, cStr_plain]
    · simp [printed]
    · simp only [printed, List.mem_append, not_or]
      exact ⟨⟨⟨hh.2, by decide, digits_no_nul (pad_digits _ _)⟩, by decide, digits_no_nul (pad_digits _ _)⟩,
        htl.plain.2⟩

/-- The hypotheses hold for `a_z00_t0.tif`. -/
example : Tail ['.', 't', 'i', 'f'] ∧ Plain ['a'] ∧ ∀ c ∈ ['0', '0'], isDig c = true := by
  refine ⟨⟨⟨'.', ['t', 'i', 'f'], by decide, by decide⟩, by decide, by decide, by decide, by decide⟩,
    ⟨by decide, by decide⟩, by decide⟩

/-- **C103** (time only): without `_z` in the name, for one slice. -/
theorem C103_time (h dt tl : List Char) (nz nt : Nat) (hh : Plain h) (ht : ∀ c ∈ dt, isDig c = true)
    (htl : Tail tl) (hno : ¬ ['_', 'z'] <:+: h ++ ['_', 't'] ++ dt ++ tl) (hnz : nz ≤ 1) :
    ∃ p, parseName (h ++ ['_', 't'] ++ dt ++ tl) nz nt = .ok p
      ∧ ∀ z t, ∃ mt, fileName p z t = .ok (h ++ ['_', 't'] ++ mt ++ tl) ∧ Numeral dt t mt ∧ mt ≠ [] := by
  obtain ⟨c, r, rfl, hc⟩ := htl.start
  refine ⟨⟨true, false, h ++ directive 'z' none ++ directive 't' (some dt.length) ++ c :: r⟩, ?_,
    fun z t => ⟨pad dt.length t, ?_, numeral_pad _ _, pad_ne_nil _ _⟩⟩
  · unfold parseName
    rw [parseTime_some h dt c r nt ht hc htl.noTime, ok_bind]
    simp only [parseDepth_none _ nz h (c :: r) hno hnz, ok_bind]
    rfl
  · have := fileName_eq h none (some dt.length) (c :: r) z t hh.1 htl.plain.1
    simp only [Option.isSome_some, Option.isSome_none] at this
    rw [this, cStr_plain]
    · simp [printed]
    · simp only [printed, List.mem_append, not_or]
      exact ⟨⟨⟨hh.2, by simp⟩, by decide, digits_no_nul (pad_digits _ _)⟩, htl.plain.2⟩

example : ¬ ['_', 'z'] <:+: ['a', '_', 't', '0', '0', '.', 't', 'i', 'f'] := by decide

/-- **C103** (depth only): without `_t` in the name, for one time step. -/
theorem C103_depth (h dz tl : List Char) (nz nt : Nat) (hh : Plain h) (hz : ∀ c ∈ dz, isDig c = true)
    (htl : Tail tl) (hno : ¬ ['_', 't'] <:+: h ++ ['_', 'z'] ++ dz ++ tl) (hnt : nt ≤ 1) :
    ∃ p, parseName (h ++ ['_', 'z'] ++ dz ++ tl) nz nt = .ok p
      ∧ ∀ z t, ∃ mz, fileName p z t = .ok (h ++ ['_', 'z'] ++ mz ++ tl) ∧ Numeral dz z mz := by
  obtain ⟨c, r, rfl, hc⟩ := htl.start
  refine ⟨⟨false, true, h ++ directive 'z' (some dz.length) ++ directive 't' none ++ c :: r⟩, ?_,
    fun z t => ⟨pad dz.length z, ?_, numeral_pad _ _⟩⟩
  · unfold parseName
    have e4 : resizeStr (h ++ ['_', 'z'] ++ dz ++ c :: r) h.length = h := by
      rw [List.append_assoc, List.append_assoc]; exact resizeStr_take _ _
    rw [parseTime_none _ nt hno hnt, ok_bind]
    simp only [parseDepth_some h dz c r nz _ _ hz hc htl.noDepth, ok_bind, e4]
    rfl
  · have := fileName_eq h (some dz.length) none (c :: r) z t hh.1 htl.plain.1
    simp only [Option.isSome_some, Option.isSome_none] at this
    rw [this, cStr_plain]
    · simp [printed]
    · simp only [printed, List.mem_append, not_or]
      exact ⟨⟨⟨hh.2, by decide, digits_no_nul (pad_digits _ _)⟩, by simp⟩, htl.plain.2⟩

/-- **C103** (one image): a name with neither stands for itself. -/
theorem C103_single (name : List Char) (nz nt : Nat) (hh : Plain name) (h1 : ¬ ['_', 't'] <:+: name)
    (h2 : ¬ ['_', 'z'] <:+: name) (hnz : nz ≤ 1) (hnt : nt ≤ 1) :
    ∃ p, parseName name nz nt = .ok p ∧ ∀ z t, fileName p z t = .ok name := by
  refine ⟨⟨false, false, name ++ directive 'z' none ++ directive 't' none ++ []⟩, ?_, fun z t => ?_⟩
  · unfold parseName
    rw [parseTime_none _ nt h1 hnt, ok_bind]
    simp only [parseDepth_none _ nz _ _ h2 hnz, ok_bind]
    rfl
  · have := fileName_eq name none none [] z t hh.1 (by simp)
    simp only [Option.isSome_none] at this
    rw [this, cStr_plain]
    · simp [printed]
    · simpa [printed] using hh.2

/-- **C103** (refused): several time steps without `_t` in the name, or several slices without `_z`, are refused. -/
theorem C103_refused (name : List Char) (nz nt : Nat)
    (h : (¬ ['_', 't'] <:+: name ∧ 1 < nt) ∨ (¬ ['_', 'z'] <:+: name ∧ 1 < nz)) :
    ∃ e, parseName name nz nt = .error e ∧ (e = .invalidArgument ∨ e = .outOfRange) := by
  unfold parseName
  rcases h with ⟨h, hn⟩ | ⟨h, hn⟩
  · refine ⟨.invalidArgument, ?_, .inl rfl⟩
    unfold parseTime
    rw [(rfind_none _ _).2 h]
    simp only [gt_iff_lt, hn, if_true]
    rfl
  · have key : ∀ hd tl, parseDepth name nz hd tl = .error .invalidArgument := by
      intro hd tl
      unfold parseDepth
      rw [(rfind_none _ _).2 h]
      simp only [gt_iff_lt, hn, if_true]
    cases e : parseTime name nt with
    | ok v =>
      refine ⟨.invalidArgument, ?_, .inl rfl⟩
      rw [ok_bind]
      obtain ⟨a, b, c⟩ := v
      simp only [key]
      rfl
    | error x =>
      refine ⟨x, rfl, ?_⟩
      unfold parseTime at e
      split at e
      · split at e
        · right; injection e with e; exact e.symm
        · exact absurd e (by simp)
      · split at e
        · left; injection e with e; exact e.symm
        · exact absurd e (by simp)

example : ¬ ['_', 'z'] <:+: ['a', '_', 't', '0', '0', '.', 't', 'i', 'f'] ∧ 1 < 64 := by decide

/-- **C103** (original): the name given is one of the names of the series, at the numbers it contains. -/
theorem C103_original (h dz dt tl : List Char) (nz nt : Nat) (hh : Plain h) (hz : ∀ c ∈ dz, isDig c = true)
    (ht : ∀ c ∈ dt, isDig c = true) (htl : Tail tl) (hz0 : dz ≠ []) (ht0 : dt ≠ []) (p : Pattern)
    (hp : parseName (h ++ ['_', 'z'] ++ dz ++ ['_', 't'] ++ dt ++ tl) nz nt = .ok p) :
    fileName p (value dz) (value dt) = .ok (h ++ ['_', 'z'] ++ dz ++ ['_', 't'] ++ dt ++ tl) := by
  obtain ⟨q, hq, hall⟩ := C103_names h dz dt tl nz nt hh hz ht htl
  rw [hp] at hq
  injection hq with hq
  subst hq
  obtain ⟨mz, mt, hf, nz', nt'⟩ := hall (value dz) (value dt)
  have unique : ∀ d m : List Char, (∀ c ∈ d, isDig c = true) → d ≠ [] → Numeral d (value d) m → m = d := by
    intro d m hd h0 hm
    exact digits_eq m d hm.digits hd (hm.exact h0 (dec_lt d hd)) hm.value
  rw [hf, unique dz mz hz hz0 nz', unique dt mt ht ht0 nt']

/-- **C103** (distinct): two images never have the same name. -/
theorem C103_distinct (h dz dt tl : List Char) (nz nt : Nat) (hh : Plain h) (hz : ∀ c ∈ dz, isDig c = true)
    (ht : ∀ c ∈ dt, isDig c = true) (htl : Tail tl) (p : Pattern)
    (hp : parseName (h ++ ['_', 'z'] ++ dz ++ ['_', 't'] ++ dt ++ tl) nz nt = .ok p)
    (z t z' t' : Nat) (heq : fileName p z t = fileName p z' t') : z = z' ∧ t = t' := by
  obtain ⟨q, hq, hall⟩ := C103_names h dz dt tl nz nt hh hz ht htl
  rw [hp] at hq
  injection hq with hq
  subst hq
  obtain ⟨mz, mt, hf, a1, a2⟩ := hall z t
  obtain ⟨mz', mt', hf', b1, b2⟩ := hall z' t'
  rw [hf, hf'] at heq
  injection heq with heq
  have heq := List.append_cancel_right heq
  simp only [List.append_assoc] at heq
  have heq := List.append_cancel_left (List.append_cancel_left heq)
  have tw : ∀ m s : List Char, (∀ c ∈ m, isDig c = true) →
      (m ++ (['_', 't'] ++ s)).takeWhile isDig = m := by
    intro m s hm
    rw [List.takeWhile_append_of_pos hm]
    have : isDig '_' = false := by decide
    simp [this]
  have hm : mz = mz' := by rw [← tw mz mt a1.digits, ← tw mz' mt' b1.digits, heq]
  subst hm
  have heq := List.append_cancel_left (List.append_cancel_left heq)
  subst heq
  exact ⟨a1.value.symm.trans b1.value, a2.value.symm.trans b2.value⟩

/-! ## Names that do not work -/

/-- **C103** (counterexample): a name that ends with the number of the time step, without extension, is refused. -/
theorem C103_end_counterexample (h dt : List Char) (nz nt : Nat) (ht : ∀ c ∈ dt, isDig c = true) :
    parseName (h ++ ['_', 't'] ++ dt) nz nt = .error .outOfRange := by
  unfold parseName parseTime
  have h1 : rfind (h ++ ['_', 't'] ++ dt) ['_', 't'] = some h.length := by
    refine rfind_underscore 't' (by decide) h _ (fun hi => ?_)
    have := underscore_skip 't' dt [] (digits_no_underscore ht) (by simpa using hi)
    simp at this
  have h2 := findNonDigit_none (h ++ ['_', 't']) dt ht
  rw [List.length_append] at h2
  simp only [h1]
  rw [show h.length + 2 = h.length + ['_', 't'].length from rfl, h2]
  rfl

/-- **C103** (counterexample): text between the number of the slice and `_t` is lost, so that the name given is
none of the names of the series. -/
theorem C103_between_counterexample (h dz mid dt tl : List Char) (nz nt : Nat) (hh : Plain h)
    (hz : ∀ c ∈ dz, isDig c = true) (ht : ∀ c ∈ dt, isDig c = true) (htl : Tail tl)
    (hmid : ∃ c r, mid = c :: r ∧ isDig c = false) (hno : ¬ ['_', 'z'] <:+: mid ++ ['_', 't'] ++ dt ++ tl) :
    ∃ p, parseName (h ++ ['_', 'z'] ++ dz ++ mid ++ ['_', 't'] ++ dt ++ tl) nz nt = .ok p
      ∧ ∀ z t, ∃ mz mt, fileName p z t = .ok (h ++ ['_', 'z'] ++ mz ++ ['_', 't'] ++ mt ++ tl)
        ∧ Numeral dz z mz ∧ Numeral dt t mt := by
  obtain ⟨c, r, rfl, hc⟩ := htl.start
  obtain ⟨e, s, rfl, he⟩ := hmid
  have e1 := parseTime_some (h ++ ['_', 'z'] ++ dz ++ e :: s) dt c r nt ht hc htl.noTime
  have e3 : h ++ ['_', 'z'] ++ dz ++ e :: (s ++ ['_', 't'] ++ dt ++ c :: r)
      = h ++ ['_', 'z'] ++ dz ++ e :: s ++ ['_', 't'] ++ dt ++ c :: r := by simp
  have e2 := parseDepth_some h dz e (s ++ ['_', 't'] ++ dt ++ c :: r) nz
    (h ++ ['_', 'z'] ++ dz ++ e :: s) (c :: r) hz he (by simpa using hno)
  rw [e3] at e2
  have e4 : resizeStr (h ++ ['_', 'z'] ++ dz ++ e :: s) h.length = h := by
    rw [List.append_assoc, List.append_assoc]; exact resizeStr_take _ _
  rw [e4] at e2
  refine ⟨⟨true, true, h ++ directive 'z' (some dz.length) ++ directive 't' (some dt.length) ++ c :: r⟩, ?_,
    fun z t => ⟨pad dz.length z, pad dt.length t, ?_, numeral_pad _ _, numeral_pad _ _⟩⟩
  · unfold parseName
    rw [e1, ok_bind]
    simp only [e2, ok_bind]
    rfl
  · have := fileName_eq h (some dz.length) (some dt.length) (c :: r) z t hh.1 htl.plain.1
    simp only [Option.isSome_some] at this
    rw [this, cStr_plain]
    · simp [printed]
    · simp only [printed, List.mem_append, not_or]
      exact ⟨⟨⟨hh.2, by decide, digits_no_nul (pad_digits _ _)⟩, by decide, digits_no_nul (pad_digits _ _)⟩,
        htl.plain.2⟩

/-- `a_z00_ch00_t0.tif`. -/
example : ¬ ['_', 'z'] <:+: ['_', 'c', 'h', '0', '0'] ++ ['_', 't'] ++ ['0'] ++ ['.', 't', 'i', 'f'] := by decide

/-- **C103** (counterexample): with the time before the depth, all the slices and time steps are loaded from the
same file, whose name stops before `_t`. -/
theorem C103_order_counterexample (h dt mid dz tl : List Char) (nz nt : Nat) (hh : Plain h)
    (hz : ∀ c ∈ dz, isDig c = true) (ht : ∀ c ∈ dt, isDig c = true) (htl : Tail tl)
    (hmid : mid = [] ∨ ∃ c r, mid = c :: r ∧ isDig c = false)
    (hno : ¬ ['_', 't'] <:+: mid ++ ['_', 'z'] ++ dz ++ tl) (hpm : '%' ∉ mid) :
    ∃ p, parseName (h ++ ['_', 't'] ++ dt ++ mid ++ ['_', 'z'] ++ dz ++ tl) nz nt = .ok p
      ∧ ∀ z t, fileName p z t = .ok h := by
  obtain ⟨c, r, rfl, hc⟩ := htl.start
  obtain ⟨e, s, hes, he⟩ : ∃ e s, mid ++ ['_', 'z'] ++ dz ++ c :: r = e :: s ∧ isDig e = false := by
    rcases hmid with rfl | ⟨e, s, rfl, he⟩
    · exact ⟨'_', 'z' :: dz ++ c :: r, by simp, by decide⟩
    · exact ⟨e, s ++ ['_', 'z'] ++ dz ++ c :: r, by simp, he⟩
  have e1 := parseTime_some h dt e s nt ht he (by rw [← hes]; exact hno)
  have e0 : h ++ ['_', 't'] ++ dt ++ e :: s = h ++ ['_', 't'] ++ dt ++ mid ++ ['_', 'z'] ++ dz ++ c :: r := by
    rw [← hes]; simp
  rw [e0] at e1
  have e2 := parseDepth_some (h ++ ['_', 't'] ++ dt ++ mid) dz c r nz h (e :: s) hz hc htl.noDepth
  obtain ⟨k, hk⟩ : ∃ k, resizeStr h (h ++ ['_', 't'] ++ dt ++ mid).length = h ++ nul :: List.replicate k nul := by
    refine ⟨1 + dt.length + mid.length, ?_⟩
    unfold resizeStr
    have l : (h ++ ['_', 't'] ++ dt ++ mid).length = h.length + (1 + dt.length + mid.length + 1) := by
      simp only [List.length_append, List.length_cons, List.length_nil]; omega
    rw [l, List.take_of_length_le (by omega), Nat.add_sub_cancel_left, List.replicate_succ]
  refine ⟨⟨true, true, resizeStr h (h ++ ['_', 't'] ++ dt ++ mid).length ++ directive 'z' (some dz.length)
    ++ directive 't' (some dt.length) ++ e :: s⟩, ?_, fun z t => ?_⟩
  · unfold parseName
    rw [e1, ok_bind]
    simp only [e2, ok_bind]
    rfl
  · have hp1 : '%' ∉ resizeStr h (h ++ ['_', 't'] ++ dt ++ mid).length := by
      rw [hk]
      simp only [List.mem_append, List.mem_cons, List.mem_replicate, not_or]
      exact ⟨hh.1, by decide, fun h => absurd h.2 (by decide)⟩
    have hp2 : '%' ∉ e :: s := by
      rw [← hes]
      simp only [List.mem_append, not_or]
      exact ⟨⟨⟨hpm, by decide⟩, digits_no_percent hz⟩, htl.plain.1⟩
    have := fileName_eq _ (some dz.length) (some dt.length) (e :: s) z t hp1 hp2
    simp only [Option.isSome_some] at this
    rw [this, hk]
    unfold cStr
    simp only [List.append_assoc]
    rw [List.takeWhile_append_of_pos]
    · simp
    · intro c hc
      simp only [bne_iff_ne, ne_eq]
      rintro rfl
      exact hh.2 hc

/-- `a_t00_z000.tif`. -/
example : ¬ ['_', 't'] <:+: [] ++ ['_', 'z'] ++ ['0', '0', '0'] ++ ['.', 't', 'i', 'f'] := by decide

/-- **C103** (counterexample): one image whose name contains a word that starts with `_t` is never loaded. -/
theorem C103_word_counterexample (h tl : List Char) (nz : Nat) (hh : Plain h) (htl : Tail tl)
    (hno : ¬ ['_', 'z'] <:+: h ++ ['_', 't'] ++ tl) (hnz : nz ≤ 1) :
    ∃ p, parseName (h ++ ['_', 't'] ++ tl) nz 1 = .ok p
      ∧ ∀ z t, fileName p z t ≠ .ok (h ++ ['_', 't'] ++ tl) := by
  obtain ⟨p, hp, hall⟩ := C103_time h [] tl nz 1 hh (by simp) htl (by simpa using hno) hnz
  refine ⟨p, by simpa using hp, fun z t he => ?_⟩
  obtain ⟨mt, hf, _, hne⟩ := hall z t
  rw [hf] at he
  injection he with he
  have := congrArg List.length he
  simp only [List.length_append] at this
  exact hne (List.eq_nil_of_length_eq_zero (by omega))

/-- `sample_top.tif`. -/
example : Tail ['o', 'p', '.', 't', 'i', 'f'] :=
  ⟨⟨'o', ['p', '.', 't', 'i', 'f'], by decide, by decide⟩, by decide, by decide, by decide, by decide⟩

end Tracker
end Colloids
