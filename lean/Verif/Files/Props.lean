import Verif.Files.Lemmas

/-! # Properties of the file series -/

namespace Colloids
namespace Files

/-- A name made of a head, the token, digits and a tail, in which the token does not occur later and
nothing is a formatting character. -/
structure Name (h tok d t : List Char) : Prop where
  /-- the digits are digits -/
  digits : ∀ c ∈ d, isDig c = true
  /-- the tail exists and does not start with a digit -/
  tail : ∃ c r, t = c :: r ∧ isDig c = false
  /-- the token is the last one -/
  last : ¬ tok <:+: (h ++ tok ++ d ++ t).drop (h.length + 1)
  plainH : '%' ∉ h
  plainTok : '%' ∉ tok
  plainT : '%' ∉ t

theorem Name.make {h tok d t : List Char} (hn : Name h tok d t) (size offset : Nat) :
    Files.make (h ++ tok ++ d ++ t) tok size offset
      = .ok ⟨patternOf h tok d.length t, tok, size, offset⟩ := by
  obtain ⟨c, r, rfl, hc⟩ := hn.tail
  exact make_eq h tok d c r size offset hn.digits hc hn.last hn.plainH hn.plainTok hn.plainT

theorem Name.tok_ne {h tok d t : List Char} (hn : Name h tok d t) : tok ≠ [] := by
  rintro rfl
  exact hn.last List.nil_infix

/-- **C39** (names): a name with the token is accepted. The name of each step consists of the same head,
token and tail around the decimal digits of `step + offset`; it has the length of the original name
whenever that number fits in the digits of the original name. -/
theorem C39_names {h tok d t : List Char} (hn : Name h tok d t) (size offset : Nat) :
    ∃ f, make (h ++ tok ++ d ++ t) tok size offset = .ok f ∧ f.length = size ∧ f.offset = offset
      ∧ ∀ step, ∃ m, f.name step = .ok (h ++ tok ++ m ++ t) ∧ (∀ c ∈ m, isDig c = true)
        ∧ value m = step + offset ∧ d.length ≤ m.length
        ∧ (d ≠ [] → step + offset < 10 ^ d.length → m.length = d.length) := by
  refine ⟨_, hn.make size offset, rfl, rfl, fun step => ⟨pad d.length (step + offset),
    render_pattern _ _ _ _ _, pad_digits _ _, value_pad _ _, ?_, ?_⟩⟩
  · rw [pad_length]; omega
  · intro hd hlt
    rw [pad_length]
    have := dec_length_le _ _ (List.length_pos_of_ne_nil hd) hlt
    omega

/-- **C39** (original name): the step the original name belongs to gives back the original name. -/
theorem C39_original {h tok d t : List Char} (hn : Name h tok d t) (hd : d ≠ [])
    (size offset step : Nat) (hv : step + offset = value d) :
    ∃ f, make (h ++ tok ++ d ++ t) tok size offset = .ok f
      ∧ f.name step = .ok (h ++ tok ++ d ++ t) := by
  refine ⟨_, hn.make size offset, ?_⟩
  unfold FileSerie.name
  simp only
  rw [render_pattern, hv, pad_value d hn.digits hd]

/-- **C39** (distinct names): distinct steps have distinct names. -/
theorem C39_distinct {h tok d t : List Char} (hn : Name h tok d t) (size offset : Nat) (f : FileSerie)
    (hf : make (h ++ tok ++ d ++ t) tok size offset = .ok f) (a b : Nat) (hab : f.name a = f.name b) :
    a = b := by
  rw [hn.make size offset] at hf
  cases hf
  unfold FileSerie.name at hab
  simp only at hab
  rw [render_pattern, render_pattern] at hab
  have h1 := Except.ok.inj hab
  have h2 := List.append_cancel_right h1
  have h3 := List.append_cancel_left h2
  have h4 := congrArg value h3
  rw [value_pad, value_pad] at h4
  omega

/-- **C39** (no digits): a pattern without digits is accepted, but then no step gives the original name. -/
theorem C39_no_digits {h tok t : List Char} (hn : Name h tok [] t) (size offset step : Nat) :
    ∃ f n, make (h ++ tok ++ t) tok size offset = .ok f ∧ f.name step = .ok n
      ∧ (h ++ tok ++ t).length < n.length := by
  have h1 := hn.make size offset
  rw [List.append_nil] at h1
  refine ⟨_, _, h1, render_pattern _ _ _ _ _, ?_⟩
  have := List.length_pos_of_ne_nil (pad_ne_nil ([] : List Char).length (step + offset))
  simp only [List.length_append]
  omega

/-- **C39** (rejection): a name lacking the token is rejected, with `invalid_argument`, and no other name
is rejected this way. -/
theorem C39_rejected (name tok : List Char) (size offset : Nat) :
    (¬ tok <:+: name → make name tok size offset = .error .invalidArgument)
    ∧ (make name tok size offset = .error .invalidArgument → ¬ tok <:+: name) := by
  constructor
  · intro h
    unfold make
    rw [(rfind_none name tok).2 h]
  · intro h
    rw [← rfind_none]
    unfold make at h
    cases hr : rfind name tok with
    | none => rfl
    | some pos =>
      exfalso
      rw [hr] at h
      simp only at h
      cases hf : findNonDigit name (pos + tok.length) with
      | none => rw [hf] at h; cases h
      | some k =>
        rw [hf] at h
        simp only at h
        have hp : ∀ fuel s, parseFmt fuel s ≠ .error .invalidArgument := by
          intro fuel
          induction fuel with
          | zero => intro s; cases s <;> simp [parseFmt]
          | succ fuel ih =>
            intro s
            cases s with
            | nil => simp [parseFmt]
            | cons c s =>
              rw [parseFmt.eq_def]
              simp only
              have hb : ∀ (x : Piece) s, (do
                  let l ← parseFmt fuel s
                  pure (x :: l) : R (List Piece)) ≠ .error .invalidArgument := by
                intro x s
                cases e : parseFmt fuel s with
                | ok l => simp
                | error e' =>
                  intro h'
                  apply ih s
                  rw [e]
                  cases h'
                  rfl
              split
              · split
                · exact hb _ _
                · split
                  · exact hb _ _
                  · simp
                · simp
              · exact hb _ _
        cases e : parseFmt (formatString (name.take pos) tok (name.drop k)
            (k - (pos + tok.length))).length (formatString (name.take pos) tok (name.drop k)
            (k - (pos + tok.length))) with
        | ok l => rw [e] at h; cases h
        | error e' =>
          rw [e] at h
          cases h
          exact hp _ _ e

/-- **C39** (counterexample): a name that ends with its digits contains the token but is rejected, with
`out_of_range`. -/
theorem C39_ends_with_digits_counterexample (h tok d : List Char) (size offset : Nat)
    (hd : ∀ c ∈ d, isDig c = true)
    (hl : ¬ tok <:+: (h ++ tok ++ d).drop (h.length + 1)) :
    make (h ++ tok ++ d) tok size offset = .error .outOfRange := by
  unfold make
  rw [rfind_last h tok d hl]
  simp only
  have := findNonDigit_none (h ++ tok) d hd
  rw [List.length_append] at this
  rw [this]

/-- **C39** (counterexample): in a name with a doubled percent sign, one is lost. -/
theorem C39_percent_counterexample :
    ∃ f, make "a%%b_t00.dat".toList "_t".toList 1 0 = .ok f ∧ f.name 0 = .ok "a%b_t00.dat".toList :=
  ⟨⟨[.lit 'a', .lit '%', .lit 'b', .lit '_', .lit 't', .arg 2, .lit '.', .lit 'd', .lit 'a', .lit 't'],
    "_t".toList, 1, 0⟩, by decide +kernel, by decide +kernel⟩

/-- **C39** (postfix): `addPostfix` gives the names with the postfix before the token and is otherwise
the same series. The token must not contain a zero: see `C39_zero_in_token_counterexample`. -/
theorem C39_postfix_partial {h tok d t : List Char} (hn : Name h tok d t) (h0 : '0' ∉ tok)
    (size offset : Nat) (post : List Char) (hp : '%' ∉ post) (f : FileSerie)
    (hf : make (h ++ tok ++ d ++ t) tok size offset = .ok f) :
    ∃ g, f.addPostfix post = .ok g ∧ g.length = size ∧ g.offset = offset
      ∧ ∀ step, ∃ m, f.name step = .ok (h ++ tok ++ m ++ t)
        ∧ g.name step = .ok (h ++ post ++ tok ++ m ++ t) := by
  rw [hn.make size offset] at hf
  cases hf
  have hni := not_infix_tail hn.tok_ne hn.last
  have e1 := rfind_last h tok (List.replicate (max d.length 1) '0' ++ t)
    (by rw [← List.append_assoc]; exact not_infix_zeros h tok t d.length h0 hn.tok_ne hni)
  have hn2 : Name (h ++ post) tok (List.replicate (max d.length 1) '0') t :=
    ⟨zeros_digits _, hn.tail, not_infix_zeros (h ++ post) tok t d.length h0 hn.tok_ne hni,
      by simp [hn.plainH, hp], hn.plainTok, hn.plainT⟩
  refine ⟨⟨patternOf (h ++ post) tok (max d.length 1) t, tok, size, offset⟩, ?_, rfl, rfl, fun step =>
    ⟨pad d.length (step + offset), render_pattern _ _ _ _ _, ?_⟩⟩
  · unfold FileSerie.addPostfix
    simp only
    rw [render_pattern, ok_bind, pad_zero]
    unfold insertBefore
    rw [List.append_assoc (h ++ tok), e1]
    simp only
    rw [ok_bind]
    have e2 : (h ++ tok ++ (List.replicate (max d.length 1) '0' ++ t)).take h.length ++ post
        ++ (h ++ tok ++ (List.replicate (max d.length 1) '0' ++ t)).drop h.length
        = h ++ post ++ tok ++ List.replicate (max d.length 1) '0' ++ t := by
      rw [List.append_assoc h, List.take_left, List.drop_left]
      simp
    rw [e2, hn2.make size offset]
    simp
  · unfold FileSerie.name
    simp only
    rw [render_pattern, pad_max]

/-- **C39** (counterexample): with a token containing a zero, the postfix goes in the middle of the
digits. -/
theorem C39_zero_in_token_counterexample :
    ∃ f g, make "x0123.dat".toList "0".toList 1 0 = .ok f ∧ f.addPostfix "P".toList = .ok g
      ∧ f.name 5 = .ok "x0005.dat".toList ∧ g.name 5 = .ok "x000P05.dat".toList :=
  ⟨⟨[.lit 'x', .lit '0', .arg 3, .lit '.', .lit 'd', .lit 'a', .lit 't'], "0".toList, 1, 0⟩,
    ⟨[.lit 'x', .lit '0', .lit '0', .lit '0', .lit 'P', .lit '0', .arg 0, .lit '.', .lit 'd', .lit 'a',
      .lit 't'], "0".toList, 1, 0⟩, by decide +kernel, by decide +kernel, by decide +kernel,
      by decide +kernel⟩

theorem replaceExt_eq (a stem e ext : List Char) (he : '.' ∉ e) :
    replaceExt (a ++ (stem ++ '.' :: e)) ext = a ++ (stem ++ ext) := by
  unfold replaceExt
  have e1 : a ++ (stem ++ '.' :: e) = (a ++ stem) ++ ['.'] ++ e := by simp
  have e2 : rfind ((a ++ stem) ++ ['.'] ++ e) ['.'] = some (a ++ stem).length := by
    apply rfind_last
    have : ((a ++ stem) ++ ['.'] ++ e).drop ((a ++ stem).length + 1) = e := by
      have := List.drop_left (l₁ := (a ++ stem) ++ ['.']) (l₂ := e)
      rw [List.length_append, List.length_singleton] at this
      exact this
    rw [this]
    intro hi
    exact he (hi.subset (by simp))
  rw [e1, e2]
  simp only
  rw [List.append_assoc (a ++ stem), List.take_left, List.append_assoc]

/-- **C39** (extension): when the tail is a stem and an extension, `changeExt` gives the names with the
other extension, and is otherwise the same series. The new tail must be acceptable. -/
theorem C39_extension_partial {h tok d stem e : List Char} (hn : Name h tok d (stem ++ '.' :: e))
    (he : '.' ∉ e) (h0 : '0' ∉ tok) (size offset : Nat) (ext : List Char) (hx : '%' ∉ ext)
    (hext : ∃ c r, stem ++ ext = c :: r ∧ isDig c = false) (hnew : ¬ tok <:+: stem ++ ext)
    (f : FileSerie) (hf : make (h ++ tok ++ d ++ (stem ++ '.' :: e)) tok size offset = .ok f) :
    ∃ g, f.changeExt ext = .ok g ∧ g.length = size ∧ g.offset = offset
      ∧ ∀ step, ∃ m, f.name step = .ok (h ++ tok ++ m ++ (stem ++ '.' :: e))
        ∧ g.name step = .ok (h ++ tok ++ m ++ (stem ++ ext)) := by
  rw [hn.make size offset] at hf
  cases hf
  have hp := hn.plainT
  have hn2 : Name h tok (List.replicate (max d.length 1) '0') (stem ++ ext) :=
    ⟨zeros_digits _, hext, not_infix_zeros h tok _ d.length h0 hn.tok_ne hnew,
      hn.plainH, hn.plainTok, by
        intro hm
        rcases List.mem_append.1 hm with hm | hm
        · exact hp (by simp [hm])
        · exact hx hm⟩
  refine ⟨⟨patternOf h tok (max d.length 1) (stem ++ ext), tok, size, offset⟩, ?_, rfl, rfl, fun step =>
    ⟨pad d.length (step + offset), render_pattern _ _ _ _ _, ?_⟩⟩
  · unfold FileSerie.changeExt
    simp only
    rw [render_pattern, ok_bind, pad_zero, replaceExt_eq _ stem e ext he, hn2.make size offset]
    simp
  · unfold FileSerie.name
    simp only
    rw [render_pattern, pad_max]

/-- **C39** (postfix and extension). -/
theorem C39_postfix_extension_partial {h tok d stem e : List Char}
    (hn : Name h tok d (stem ++ '.' :: e)) (he : '.' ∉ e) (h0 : '0' ∉ tok) (size offset : Nat)
    (post ext : List Char) (hpo : '%' ∉ post) (hx : '%' ∉ ext)
    (hext : ∃ c r, stem ++ ext = c :: r ∧ isDig c = false) (hnew : ¬ tok <:+: stem ++ ext)
    (f : FileSerie) (hf : make (h ++ tok ++ d ++ (stem ++ '.' :: e)) tok size offset = .ok f) :
    ∃ g, f.addPostfixExt post ext = .ok g ∧ g.length = size ∧ g.offset = offset
      ∧ ∀ step, ∃ m, f.name step = .ok (h ++ tok ++ m ++ (stem ++ '.' :: e))
        ∧ g.name step = .ok (h ++ post ++ tok ++ m ++ (stem ++ ext)) := by
  rw [hn.make size offset] at hf
  cases hf
  have hni := not_infix_tail hn.tok_ne hn.last
  have e1 := rfind_last h tok (List.replicate (max d.length 1) '0' ++ (stem ++ '.' :: e))
    (by rw [← List.append_assoc]; exact not_infix_zeros h tok _ d.length h0 hn.tok_ne hni)
  have hp := hn.plainT
  have hn2 : Name (h ++ post) tok (List.replicate (max d.length 1) '0') (stem ++ ext) :=
    ⟨zeros_digits _, hext, not_infix_zeros (h ++ post) tok _ d.length h0 hn.tok_ne hnew,
      by simp [hn.plainH, hpo], hn.plainTok, by
        intro hm
        rcases List.mem_append.1 hm with hm | hm
        · exact hp (by simp [hm])
        · exact hx hm⟩
  refine ⟨⟨patternOf (h ++ post) tok (max d.length 1) (stem ++ ext), tok, size, offset⟩, ?_, rfl, rfl,
    fun step => ⟨pad d.length (step + offset), render_pattern _ _ _ _ _, ?_⟩⟩
  · unfold FileSerie.addPostfixExt
    simp only
    rw [render_pattern, ok_bind, pad_zero]
    unfold insertBefore
    rw [List.append_assoc (h ++ tok), e1]
    simp only
    rw [ok_bind]
    have e2 : (h ++ tok ++ (List.replicate (max d.length 1) '0' ++ (stem ++ '.' :: e))).take h.length
        ++ post
        ++ (h ++ tok ++ (List.replicate (max d.length 1) '0' ++ (stem ++ '.' :: e))).drop h.length
        = h ++ post ++ tok ++ List.replicate (max d.length 1) '0' ++ (stem ++ '.' :: e) := by
      rw [List.append_assoc h, List.take_left, List.drop_left]
      simp
    rw [e2, replaceExt_eq _ stem e ext he, hn2.make size offset]
    simp
  · unfold FileSerie.name
    simp only
    rw [render_pattern, pad_max]

/-- **C39** (counterexample): removing the extension altogether throws `out_of_range`. -/
theorem C39_no_extension_counterexample {h tok d e : List Char} (hn : Name h tok d ('.' :: e))
    (he : '.' ∉ e) (h0 : '0' ∉ tok) (size offset : Nat) (f : FileSerie)
    (hf : make (h ++ tok ++ d ++ '.' :: e) tok size offset = .ok f) :
    f.changeExt [] = .error .outOfRange := by
  rw [hn.make size offset] at hf
  cases hf
  unfold FileSerie.changeExt
  simp only
  have e1 := replaceExt_eq (h ++ tok ++ List.replicate (max d.length 1) '0') [] e [] he
  rw [List.nil_append, List.append_nil, List.append_nil] at e1
  rw [render_pattern, ok_bind, pad_zero, e1]
  apply C39_ends_with_digits_counterexample _ _ _ _ _ (zeros_digits _)
  have := not_infix_zeros h tok [] d.length h0 hn.tok_ne
    (fun hi => hn.tok_ne (List.eq_nil_of_infix_nil hi))
  rw [List.append_nil] at this
  exact this

/-- **C39** (counterexample): when the only dot is before the token, `changeExt` cuts the name there, and
the token is lost. -/
theorem C39_dot_in_head_counterexample :
    ∃ f, make "./a_t00_x".toList "_t".toList 1 0 = .ok f
      ∧ f.changeExt ".b".toList = .error .invalidArgument :=
  ⟨⟨[.lit '.', .lit '/', .lit 'a', .lit '_', .lit 't', .arg 2, .lit '_', .lit 'x'], "_t".toList, 1, 0⟩,
    by decide +kernel, by decide +kernel⟩

/-- **C39** (head): the head is what precedes the token. -/
theorem C39_head {h tok d t : List Char} (hn : Name h tok d t) (h0 : '0' ∉ tok) (size offset : Nat)
    (f : FileSerie) (hf : make (h ++ tok ++ d ++ t) tok size offset = .ok f) : f.head = .ok h := by
  rw [hn.make size offset] at hf
  cases hf
  have hni := not_infix_tail hn.tok_ne hn.last
  have e1 := rfind_last h tok (List.replicate (max d.length 1) '0' ++ t)
    (by rw [← List.append_assoc]; exact not_infix_zeros h tok t d.length h0 hn.tok_ne hni)
  unfold FileSerie.head
  simp only
  rw [render_pattern, ok_bind, pad_zero, List.append_assoc (h ++ tok), e1]
  simp only
  rw [List.append_assoc h, List.take_left]
  rfl

/-- **C39** (first name): the name made by `get0th` and an extension is the name of step 0 of its series,
and all the names of the series have the same length. -/
theorem C39_get0th (pre ext tok : List Char) (size : Nat) (hs : 0 < size) (hp : '%' ∉ pre)
    (he : '%' ∉ ext) (ht : ¬ ['_', 't'] <:+: '.' :: ext) :
    ∃ f, make (get0th pre size tok ++ '.' :: ext) ['_', 't'] size 0 = .ok f
      ∧ f.name 0 = .ok (get0th pre size tok ++ '.' :: ext)
      ∧ ∀ step, step < size → ∃ n, f.name step = .ok n
        ∧ n.length = (get0th pre size tok ++ '.' :: ext).length := by
  have hk : 0 < (dec (size - 1)).length := List.length_pos_of_ne_nil (dec_ne_nil _)
  have hn : Name pre ['_', 't'] (List.replicate (max (dec (size - 1)).length 1) '0') ('.' :: ext) :=
    ⟨zeros_digits _, ⟨'.', ext, rfl, by decide⟩,
      not_infix_zeros pre ['_', 't'] ('.' :: ext) _ (by decide) (by simp) ht, hp, by decide, by simp [he]⟩
  have hmk := hn.make size 0
  rw [List.length_replicate] at hmk
  refine ⟨_, hmk, ?_, fun step hst => ⟨_, render_pattern _ _ _ _ _, ?_⟩⟩
  · unfold FileSerie.name
    simp only
    rw [render_pattern, Nat.add_zero, pad_zero]
    have : max (max (dec (size - 1)).length 1) 1 = max (dec (size - 1)).length 1 := by omega
    rw [this]
    rfl
  · have hlen : (dec step).length ≤ (dec (size - 1)).length := by
      apply dec_length_le _ _ hk
      have h1 := dec_lt (dec (size - 1)) (dec_digits _)
      rw [value_dec] at h1
      omega
    simp only [get0th, List.length_append, pad_length, List.length_replicate, Nat.add_zero]
    omega

/-- **C39** (counterexample): `get0th` ignores the token it is given, so the name made for another token
can be rejected by the constructor. -/
theorem C39_get0th_token_counterexample (size : Nat) :
    make (get0th ['a', 'b'] size ['_', 'z'] ++ ['.', 'd']) ['_', 'z'] size 0
      = .error .invalidArgument := by
  apply (C39_rejected _ _ _ _).1
  intro h
  have := h.subset (a := 'z') (by simp)
  simp [get0th] at this

/-- A concrete name. -/
example : Name "dir/ab_".toList "_t".toList "007".toList ".dat".toList ∧ '0' ∉ "_t".toList
    ∧ value "007".toList = 7 :=
  ⟨⟨by decide, ⟨'.', "dat".toList, rfl, by decide⟩,
    fun h => by
      have := h.subset (a := '_') (by simp)
      revert this
      decide,
    by decide, by decide, by decide⟩, by decide, by decide⟩

end Files
end Colloids
