import Mathlib.Tactic.NormNum
import Mathlib.Tactic.Ring
import Verif.CommonLemmas
import Verif.Files.Lemmas
import Verif.Py.GuessModel

/-! # C265: what is guessed of an experiment -/

namespace Colloids
namespace Py
namespace Guess

open Files (isDig value pad)

/-- Digits -/
def Digits (d : List Char) : Prop := ∀ c ∈ d, isDig c = true

/-- No digit -/
def NoDigit (a : List Char) : Prop := ∀ c ∈ a, isDig c = false

/-- Does not begin by a digit -/
def Cut (r : List Char) : Prop := ∀ c, r.head? = some c → isDig c = false

theorem span_take {d r : List Char} (hd : Digits d) (hr : Cut r) : (d ++ r).takeWhile isDig = d ∧ (d ++ r).dropWhile isDig = r := by
  induction d with
  | nil =>
    cases r with
    | nil => exact ⟨rfl, rfl⟩
    | cons c r =>
      have := hr c rfl
      simp [this]
  | cons c d ih =>
    have h1 := hd c List.mem_cons_self
    obtain ⟨h2, h3⟩ := ih fun x hx => hd x (List.mem_cons_of_mem _ hx)
    rw [List.cons_append, List.takeWhile_cons_of_pos h1, List.dropWhile_cons_of_pos h1, h2, h3]
    exact ⟨rfl, rfl⟩

theorem search_letters {w a s : List Char} (ha : NoDigit a) : search w (a ++ s) = (search w s).map fun x => (a ++ x.1, x.2) := by
  induction a with
  | nil =>
    rw [List.nil_append]
    cases search w s <;> rfl
  | cons c a ih =>
    rw [List.cons_append, search, if_neg, ih fun x hx => ha x (List.mem_cons_of_mem _ hx), Option.map_map]
    · rfl
    · rintro ⟨h, -⟩
      apply h
      rw [List.takeWhile_cons_of_neg]
      rw [ha c List.mem_cons_self]
      decide

theorem search_found {w a d r : List Char} (ha : NoDigit a) (hd : Digits d) (h0 : d ≠ []) (hw : Cut (w ++ r)) : search w (a ++ (d ++ (w ++ r))) = some (a, d, r) := by
  obtain ⟨h1, h2⟩ := span_take hd hw
  obtain ⟨c, d', rfl⟩ := List.exists_cons_of_ne_nil h0
  rw [search_letters ha, List.cons_append, search, ← List.cons_append, h1, h2, if_pos ⟨h0, by simp [List.isPrefixOf_iff_prefix]⟩, List.drop_left]
  simp

theorem search_skip {w a d t : List Char} (ha : NoDigit a) (hd : Digits d) (ht : Cut t) (hw : w.isPrefixOf t = false) :
    search w (a ++ (d ++ t)) = (search w t).map fun x => (a ++ (d ++ x.1), x.2) := by
  rw [search_letters ha]
  have : search w (d ++ t) = (search w t).map fun x => (d ++ x.1, x.2) := by
    clear ha
    induction d with
    | nil =>
      rw [List.nil_append]
      cases search w t <;> rfl
    | cons c d ih =>
      obtain ⟨h1, h2⟩ := span_take hd ht
      rw [List.cons_append, search, ← List.cons_append, h1, h2, if_neg (by rw [hw]; simp), ih fun x hx => hd x (List.mem_cons_of_mem _ hx), Option.map_map]
      rfl
  rw [this, Option.map_map]
  rfl

theorem cut_of {c : Char} {r : List Char} (h : isDig c = false) : Cut (c :: r) := by
  intro x hx
  rw [List.head?_cons, Option.some.injEq] at hx
  rw [← hx]
  exact h

theorem cut_min (r : List Char) : Cut ("min".toList ++ r) := cut_of (c := 'm') (by decide)

theorem cut_s (r : List Char) : Cut ("s".toList ++ r) := cut_of (c := 's') (by decide)

/-- C265. The time step of a name with minutes and seconds, as `film_5min30s5_x`, that has no digit before. -/
theorem C265_dt_partial (a m s f r : List Char) (ha : NoDigit a) (hm : Digits m) (hm0 : m ≠ []) (hs : Digits s) (hs0 : s ≠ []) (hf : Digits f) (hr : Cut r) :
    dt (a ++ (m ++ ("min".toList ++ (s ++ ("s".toList ++ (f ++ r)))))) = 60 * (value m : ℚ) + (value s : ℚ) + (value f : ℚ) / 10 ^ f.length := by
  have h1 : search "min".toList (a ++ (m ++ ("min".toList ++ (s ++ ("s".toList ++ (f ++ r)))))) = some (a, m, s ++ ("s".toList ++ (f ++ r))) :=
    search_found ha hm hm0 (cut_of (by decide))
  have h2 : search "s".toList (a ++ (m ++ ("min".toList ++ (s ++ ("s".toList ++ (f ++ r)))))) = some (a ++ (m ++ "min".toList), s, f ++ r) := by
    rw [search_skip ha hm (cut_min _) (by rfl), search_found (a := "min".toList) (by unfold NoDigit; decide) hs hs0 (cut_s _)]
    rfl
  rw [dt, minutes, h1, seconds, h2]
  simp only
  rw [(span_take hf hr).1]
  ring

/-- C265. The time step of a name with seconds only. -/
theorem C265_seconds_partial (a s f r : List Char) (ha : NoDigit a) (hs : Digits s) (hs0 : s ≠ []) (hf : Digits f) (hr : NoDigit r) (hmin : ¬ "min".toList <+: r) :
    dt (a ++ (s ++ ("s".toList ++ (f ++ r)))) = (value s : ℚ) + (value f : ℚ) / 10 ^ f.length := by
  have hcut : Cut r := by
    intro c hc
    exact hr c (List.mem_of_mem_head? hc)
  have hnone : ∀ w, search w r = none := by
    intro w
    have := search_letters (w := w) (s := []) hr
    rw [List.append_nil] at this
    rw [this]
    rfl
  have h1 : search "min".toList (a ++ (s ++ ("s".toList ++ (f ++ r)))) = none := by
    rw [search_skip ha hs (cut_s _) (by rfl), search_skip (a := "s".toList) (by unfold NoDigit; decide) hf hcut, hnone]
    · rfl
    · rw [← Bool.not_eq_true, List.isPrefixOf_iff_prefix]
      exact hmin
  have h2 : search "s".toList (a ++ (s ++ ("s".toList ++ (f ++ r)))) = some (a, s, f ++ r) := search_found ha hs hs0 (cut_of (by decide))
  rw [dt, minutes, h1, seconds, h2]
  simp only
  rw [(span_take hf hcut).1, zero_add]

/-- C265, the part that is false. In `2samples_10s` the time step is 2: a number before any word that begins by the letter s is taken for seconds. -/
theorem C265_word_counterexample (a d w e : List Char) (ha : NoDigit a) (hd : Digits d) (h0 : d ≠ []) (hw : NoDigit w) (hw0 : w ≠ []) (he : Digits e) :
    dt (a ++ (d ++ ("s".toList ++ (w ++ (e ++ "s".toList))))) = (value d : ℚ) := by
  have hcut : Cut (w ++ (e ++ "s".toList)) := by
    obtain ⟨c, w', rfl⟩ := List.exists_cons_of_ne_nil hw0
    exact cut_of (hw c List.mem_cons_self)
  have h1 : search "min".toList (a ++ (d ++ ("s".toList ++ (w ++ (e ++ "s".toList))))) = none := by
    rw [search_skip ha hd (cut_s _) (by rfl)]
    have : NoDigit ("s".toList ++ w) := by
      intro c hc
      rw [List.mem_append] at hc
      rcases hc with hc | hc
      · revert c
        decide
      · exact hw c hc
    rw [← List.append_assoc, search_skip (w := "min".toList) (t := "s".toList) this he (cut_of (c := 's') (r := []) (by decide)) (by rfl)]
    rfl
  have h2 : search "s".toList (a ++ (d ++ ("s".toList ++ (w ++ (e ++ "s".toList))))) = some (a, d, w ++ (e ++ "s".toList)) := search_found ha hd h0 (cut_of (by decide))
  have h3 : (w ++ (e ++ "s".toList)).takeWhile isDig = [] := by
    have := (span_take (d := []) (by simp [Digits]) hcut).1
    simpa using this
  rw [dt, minutes, h1, seconds, h2]
  simp only [h3]
  simp [value]

theorem pad_digits (w n : Nat) : Digits (pad w n) := by
  intro c hc
  rw [pad, List.mem_append] at hc
  rcases hc with hc | hc
  · rw [(List.mem_replicate.1 hc).2]
    decide
  · exact Files.dec_digits n c hc

theorem mask_frame {head token d : List Char} (ht : NoDigit token) (hd : Digits d) (h0 : d ≠ []) :
    maskMatch head (head ++ (token ++ (d ++ ".dat".toList))) = some (token, d) := by
  rw [maskMatch, if_pos (by simp [List.isPrefixOf_iff_prefix]), List.drop_left]
  have := search_found (w := ".dat".toList) (r := []) ht hd h0 (cut_of (by decide))
  rw [List.append_nil] at this
  rw [this]
  rfl

theorem search_infix {w s : List Char} (h : ¬ w <:+: s) : search w s = none := by
  induction s with
  | nil => rw [search]
  | cons c s ih =>
    rw [search, if_neg, ih fun hi => h (hi.trans (List.suffix_cons c s).isInfix)]
    · rfl
    · rintro ⟨-, h2⟩
      exact h ((List.isPrefixOf_iff_prefix.1 h2).isInfix.trans (List.dropWhile_suffix _).isInfix)

theorem longest_same (token : List Char) (w : Nat) (hw : 0 < w) (l : List (List Char × List Char)) (hl : ∀ m ∈ l, m.1 = token ∧ m.2.length = w) (h0 : l ≠ []) :
    longest l = (some token, w) := by
  have key : ∀ l : List (List Char × List Char), (∀ m ∈ l, m.1 = token ∧ m.2.length = w) →
      l.foldl (fun acc m => if acc.2 < m.2.length then (some m.1, m.2.length) else acc) (some token, w) = (some token, w) := by
    intro l
    induction l with
    | nil => exact fun _ => rfl
    | cons m l ih =>
      intro h
      rw [List.foldl_cons, if_neg (by rw [(h m List.mem_cons_self).2]; simp), ih fun x hx => h x (List.mem_cons_of_mem _ hx)]
  obtain ⟨m, l', rfl⟩ := List.exists_cons_of_ne_nil h0
  obtain ⟨h1, h2⟩ := hl m List.mem_cons_self
  rw [longest, List.foldl_cons, if_pos (by rw [h2]; exact hw), h1, h2, key _ fun x hx => hl x (List.mem_cons_of_mem _ hx)]

/-- C265. In a folder with the files of the frames 0 to n - 1 only, in any order, among files that have another beginning or no `.dat` in their name, the token and the number of digits are right; so is the number of
frames, without the last one if it is empty. -/
theorem C265_size_partial (head token : List Char) (w n : Nat) (ht : NoDigit token) (hn : 0 < n) (hw : n ≤ 10 ^ w) (hw0 : 0 < w) (files other : List (List Char))
    (hf : files.Perm ((List.range n).map (fun t => head ++ (token ++ (pad w t ++ ".dat".toList))) ++ other)) (ho : ∀ f ∈ other, ¬ head <+: f ∨ ¬ ".dat".toList <:+: f)
    (particles : List Char → R Nat) (k : Nat) (hk : particles (head ++ (token ++ (pad w (n - 1) ++ ".dat".toList))) = .ok k) :
    guess files particles head = .ok (if k = 0 then n - 1 else n, token, w) := by
  have hlen : ∀ t < n, (pad w t).length = w := by
    intro t h
    have := Files.dec_length_le t w hw0 (by omega)
    rw [pad, List.length_append, List.length_replicate]
    omega
  have hm : ((List.range n).map (fun t => head ++ (token ++ (pad w t ++ ".dat".toList)))).filterMap (maskMatch head) = (List.range n).map fun t => (token, pad w t) := by
    rw [List.filterMap_map]
    rw [← List.filterMap_eq_map]
    apply List.filterMap_congr
    intro t ht'
    have h2 := hlen t (List.mem_range.1 ht')
    simp only [Function.comp]
    exact mask_frame ht (pad_digits w t) (by intro h; rw [h] at h2; simp at h2; omega)
  have hother : other.filterMap (maskMatch head) = [] := by
    rw [List.filterMap_eq_nil_iff]
    intro f hf'
    rw [maskMatch]
    split
    · rename_i hp
      rcases ho f hf' with h | h
      · exact absurd (List.isPrefixOf_iff_prefix.1 hp) h
      · rw [search_infix fun hi => h (hi.trans (List.drop_suffix _ _).isInfix)]
        rfl
    · rfl
  have hp := hf.filterMap (maskMatch head)
  rw [List.filterMap_append, hm, hother, List.append_nil] at hp
  have hl : (files.filterMap (maskMatch head)).length = n := by rw [hp.length_eq]; simp
  have hlong : longest (files.filterMap (maskMatch head)) = (some token, w) := by
    apply longest_same token w hw0
    · intro m hm'
      obtain ⟨t, h1, rfl⟩ := List.mem_map.1 (hp.mem_iff.1 hm')
      exact ⟨rfl, hlen t (List.mem_range.1 h1)⟩
    · intro h
      rw [h] at hl
      simp at hl
      omega
  rw [guess, hlong]
  simp only [hl]
  rw [show head ++ token ++ pad w (n - 1) ++ ".dat".toList = head ++ (token ++ (pad w (n - 1) ++ ".dat".toList)) by simp, hk, ok_bind]
  rfl

/-- C265, the part that is false. A file of another series whose name begins by the head, as `film_long_t000.dat` for `film`, is counted, and the file that is looked for as the last one is not one of
the n frames: if it does not exist the experiment cannot be opened. -/
theorem C265_mixed_counterexample (head token token' d : List Char) (w n : Nat) (ht : NoDigit token) (hn : 0 < n) (hw : n ≤ 10 ^ w) (hw0 : 0 < w)
    (ht' : NoDigit token') (hd : Digits d) (hd0 : d ≠ []) (hdw : d.length ≤ w) (particles : List Char → R Nat) (e : Fault)
    (hk : particles (head ++ (token ++ (pad w n ++ ".dat".toList))) = .error e) :
    guess ((List.range n).map (fun t => head ++ (token ++ (pad w t ++ ".dat".toList))) ++ [head ++ (token' ++ (d ++ ".dat".toList))]) particles head = .error e := by
  have hlen : ∀ t < n, (pad w t).length = w := by
    intro t h
    have := Files.dec_length_le t w hw0 (by omega)
    rw [pad, List.length_append, List.length_replicate]
    omega
  have hm : ((List.range n).map (fun t => head ++ (token ++ (pad w t ++ ".dat".toList)))).filterMap (maskMatch head) = (List.range n).map fun t => (token, pad w t) := by
    rw [List.filterMap_map]
    rw [← List.filterMap_eq_map]
    apply List.filterMap_congr
    intro t ht'
    have h2 := hlen t (List.mem_range.1 ht')
    simp only [Function.comp]
    exact mask_frame ht (pad_digits w t) (by intro h; rw [h] at h2; simp at h2; omega)
  have hall : ((List.range n).map (fun t => head ++ (token ++ (pad w t ++ ".dat".toList))) ++ [head ++ (token' ++ (d ++ ".dat".toList))]).filterMap (maskMatch head) =
      (List.range n).map (fun t => (token, pad w t)) ++ [(token', d)] := by
    rw [List.filterMap_append, hm, List.filterMap_cons, mask_frame ht' hd hd0]
    rfl
  have hlong : longest ((List.range n).map (fun t => (token, pad w t)) ++ [(token', d)]) = (some token, w) := by
    have h1 := longest_same token w hw0 ((List.range n).map fun t => (token, pad w t)) (fun m hm' => by
      obtain ⟨t, h1, rfl⟩ := List.mem_map.1 hm'
      exact ⟨rfl, hlen t (List.mem_range.1 h1)⟩) (by
        intro h
        have := congrArg List.length h
        simp at this
        omega)
    rw [longest] at h1 ⊢
    rw [List.foldl_append, h1, List.foldl_cons, if_neg (by show ¬ w < d.length; omega)]
    rfl
  rw [guess, hall, hlong]
  simp only [List.length_append, List.length_map, List.length_range, List.length_singleton, Nat.add_sub_cancel]
  rw [show head ++ token ++ pad w n ++ ".dat".toList = head ++ (token ++ (pad w n ++ ".dat".toList)) by simp, hk]
  rfl

/-- Names that meet the hypotheses. -/
example : NoDigit "film_".toList ∧ Digits "5".toList ∧ Digits "30".toList ∧ Cut "_x".toList ∧ NoDigit "_t".toList ∧ NoDigit "amples_".toList ∧ ¬ "min".toList <+: "_x".toList ∧
    ¬ "film".toList <+: "other_t000.dat".toList ∧ ¬ ".dat".toList <:+: "film.rdf".toList := by
  refine ⟨by unfold NoDigit; decide, by unfold Digits; decide, by unfold Digits; decide, ?_, by unfold NoDigit; decide, by unfold NoDigit; decide, by decide, by decide, by decide +kernel⟩
  exact cut_of (by decide)

end Guess
end Py
end Colloids
