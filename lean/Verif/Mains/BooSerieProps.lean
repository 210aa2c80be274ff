import Mathlib.Data.List.TakeWhile
import Verif.CommonLemmas
import Verif.Index.Lemmas
import Verif.Files.Lemmas
import Verif.Mains.BooSerieModel

/-! # C249: the files of a series in `periodic_boo` -/

namespace Colloids
namespace Mains
namespace BooSerie

open Files

/-- A number in decimal digits, without a zero in front of other digits. -/
structure Written (m : List Char) (n : Nat) : Prop where
  digits : ∀ c ∈ m, isDig c = true
  value : value m = n
  lead : ∃ c r, m = c :: r ∧ (c ≠ '0' ∨ r = [])

theorem value_zero (r : List Char) : value ('0' :: r) = value r := by
  have := value_replicate_zero 1 r
  exact this

theorem dec_written (n : Nat) : Written (dec n) n where
  digits := dec_digits n
  value := value_dec n
  lead := by
    obtain ⟨c, r, h⟩ := List.exists_cons_of_ne_nil (dec_ne_nil n)
    refine ⟨c, r, h, ?_⟩
    by_contra hc
    rw [not_or, not_not] at hc
    obtain ⟨rfl, hr⟩ := hc
    have hd : ∀ c ∈ r, isDig c = true := fun c hc => dec_digits n c (h ▸ List.mem_cons_of_mem _ hc)
    have hv : Files.value r = n := by rw [← value_zero, ← h, value_dec]
    have h1 := dec_lt r hd
    rw [hv] at h1
    have h2 := dec_length_le n r.length (List.length_pos_iff.2 hr) h1
    rw [h, List.length_cons] at h2
    omega

theorem written_eq {m : List Char} {n : Nat} (h : Written m n) : m = dec n := by
  obtain ⟨c, r, e, hc⟩ := h.lead
  have hp := pad_value m h.digits (by rw [e]; exact List.cons_ne_nil _ _)
  rw [h.value, pad] at hp
  by_cases h0 : m.length - (dec n).length = 0
  · rw [h0, List.replicate_zero, List.nil_append] at hp
    exact hp.symm
  · obtain ⟨k, hk⟩ := Nat.exists_eq_succ_of_ne_zero h0
    rw [hk, List.replicate_succ, List.cons_append, e] at hp
    injection hp with h1 h2
    rcases hc with hc | hc
    · exact absurd h1.symm hc
    · have h3 : 0 < (dec n).length := List.length_pos_iff.2 (dec_ne_nil n)
      rw [e, hc, List.length_singleton] at h0
      omega

theorem dropWhile_split {A : Type} (p : A → Bool) (a b : List A) (ha : ∀ x ∈ a, p x = true) (hb : ∀ x, b.head? = some x → p x = false) :
    (a ++ b).dropWhile p = b := by
  induction a with
  | nil =>
    cases b with
    | nil => rfl
    | cons x b => rw [List.nil_append, List.dropWhile_cons_of_neg (by rw [hb x rfl]; exact Bool.false_ne_true)]
  | cons x a ih =>
    rw [List.cons_append, List.dropWhile_cons_of_pos (ha x List.mem_cons_self)]
    exact ih fun y hy => ha y (List.mem_cons_of_mem _ hy)

/-- The parts of a name with a last number `d`. -/
theorem parts_eq (h d tl : List Char) (hd : d ≠ []) (hdig : ∀ c ∈ d, isDig c = true) (hh : ∀ c, h.getLast? = some c → isDig c = false)
    (ht : ∀ c ∈ tl, isDig c = false) : head (h ++ d ++ tl) = h ∧ tail (h ++ d ++ tl) = tl := by
  have h1 : upTo (h ++ d ++ tl) = h ++ d := by
    rw [upTo, List.reverse_append, dropWhile_split, List.reverse_reverse]
    · intro x hx
      rw [ht x (List.mem_reverse.1 hx)]
      rfl
    · intro x hx
      rw [List.head?_reverse, List.getLast?_append_of_ne_nil _ hd] at hx
      rw [hdig x (List.mem_of_getLast? hx)]
      rfl
  constructor
  · rw [head, h1, List.reverse_append, dropWhile_split, List.reverse_reverse]
    · intro x hx
      exact hdig x (List.mem_reverse.1 hx)
    · intro x hx
      rw [List.head?_reverse] at hx
      exact hh x hx
  · rw [tail, h1, List.drop_left]

/-- C249. For a name `h d tl` where `d` is the last number, the files treated for a time span `n` are those named `h`, the time without leading zeros, `tl`,
one for each time from 0 to `n - 1`. The file given as example is one of them exactly if its number is below `n` and written without a leading zero. -/
theorem C249_files_partial (h d tl : List Char) (n : Nat) (hd : d ≠ []) (hdig : ∀ c ∈ d, isDig c = true)
    (hh : ∀ c, h.getLast? = some c → isDig c = false) (ht : ∀ c ∈ tl, isDig c = false) (hp : '%' ∉ h ++ tl) :
    ∃ l, files (h ++ d ++ tl) n = .ok l ∧ l.length = n ∧ l.Nodup ∧
      (∀ t < n, ∃ m, Written m t ∧ l[t]? = some (h ++ m ++ tl)) ∧
      (h ++ d ++ tl ∈ l ↔ value d < n ∧ (d.head? ≠ some '0' ∨ d.length = 1)) := by
  obtain ⟨e1, e2⟩ := parts_eq h d tl hd hdig hh ht
  have hf : ∀ t, fileName (h ++ d ++ tl) t = .ok (h ++ dec t ++ tl) := by
    intro t
    rw [fileName, e1, e2, if_neg hp]
  have hinj : ∀ t t', h ++ dec t ++ tl = h ++ dec t' ++ tl → t = t' := by
    intro t t' e
    have := List.append_cancel_left (List.append_cancel_right e)
    rw [← value_dec t, this, value_dec]
  refine ⟨(List.range n).map fun t => h ++ dec t ++ tl, ?_, ?_, ?_, ?_, ?_⟩
  · exact TreeIndex.mapM_ok_of _ _ _ fun t _ => hf t
  · rw [List.length_map, List.length_range]
  · exact List.Nodup.map (fun a b e => hinj a b e) List.nodup_range
  · intro t htn
    refine ⟨dec t, dec_written t, ?_⟩
    rw [List.getElem?_map, List.getElem?_range htn]
    rfl
  · rw [List.mem_map]
    constructor
    · rintro ⟨t, htn, e⟩
      have e' : dec t = d := List.append_cancel_left (List.append_cancel_right e)
      obtain ⟨c, r, hc, h0⟩ := (dec_written t).lead
      rw [← e', value_dec]
      refine ⟨List.mem_range.1 htn, ?_⟩
      rw [hc]
      rcases h0 with h0 | h0
      · exact Or.inl fun k => h0 (by simpa using k)
      · exact Or.inr (by rw [h0]; rfl)
    · rintro ⟨hv, hl⟩
      obtain ⟨c, r, e⟩ := List.exists_cons_of_ne_nil hd
      have hw : Written d (value d) := ⟨hdig, rfl, c, r, e, by
        rw [e] at hl
        rcases hl with hl | hl
        · exact Or.inl fun k => hl (by rw [k]; rfl)
        · refine Or.inr (List.length_eq_zero_iff.1 ?_)
          rw [List.length_cons] at hl
          omega⟩
      exact ⟨value d, List.mem_range.2 hv, by rw [← written_eq hw]⟩

/-- C249, the part that is false. If the numbers in the names are filled with zeros, the file given as example is not treated, whatever the time span. -/
theorem C249_zeros_counterexample (h r tl : List Char) (n : Nat) (hr : r ≠ []) (hdig : ∀ c ∈ r, isDig c = true)
    (hh : ∀ c, h.getLast? = some c → isDig c = false) (ht : ∀ c ∈ tl, isDig c = false) (hp : '%' ∉ h ++ tl) :
    ∃ l, files (h ++ '0' :: r ++ tl) n = .ok l ∧ h ++ '0' :: r ++ tl ∉ l := by
  obtain ⟨l, h1, _, _, _, h2⟩ := C249_files_partial h ('0' :: r) tl n (List.cons_ne_nil _ _) (by
    intro c hc
    rcases List.mem_cons.1 hc with rfl | hc
    · decide
    · exact hdig c hc) hh ht hp
  refine ⟨l, h1, fun h3 => ?_⟩
  have := (h2.1 h3).2
  have h0 : 0 < r.length := List.length_pos_iff.2 hr
  simp only [List.head?_cons, ne_eq, not_true_eq_false, List.length_cons, false_or] at this
  omega

/-- C249, the part that is false. If the extension has a digit, the number of the extension changes with time and the rest of the name is that of the example. -/
theorem C249_extension_counterexample (a e : List Char) (n : Nat) (he : ∃ c ∈ e, isDig c = true) (l : List (List Char))
    (hl : files (a ++ '.' :: e) n = .ok l) : ∀ s ∈ l, a ++ ['.'] <+: s := by
  have hx : ∀ x : List Char, (∃ c ∈ x, isDig c = true) → a ++ ['.'] <+: head (a ++ '.' :: x) := by
    intro x hx
    have hu : ∃ y : List Char, upTo (a ++ '.' :: x) = a ++ '.' :: y := by
      refine ⟨(x.reverse.dropWhile fun c => !isDig c).reverse, ?_⟩
      rw [upTo, List.reverse_append, List.reverse_cons, List.dropWhile_append, List.dropWhile_append]
      have hne : (x.reverse.dropWhile fun c => !isDig c) ≠ [] := by
        obtain ⟨c, hc, hd⟩ := hx
        intro h0
        have := List.dropWhile_eq_nil_iff.1 h0 c (List.mem_reverse.2 hc)
        rw [hd] at this
        exact Bool.false_ne_true this
      simp [hne]
    obtain ⟨y, hy⟩ := hu
    rw [head, hy, List.reverse_append, List.reverse_cons, List.dropWhile_append, List.dropWhile_append]
    by_cases h0 : (y.reverse.dropWhile isDig) = []
    · have hdot : isDig '.' = false := by decide
      simp [h0, hdot]
    · simp [h0]
  intro s hs
  obtain ⟨t, ht⟩ : ∃ t, fileName (a ++ '.' :: e) t = .ok s := by
    by_cases hp : '%' ∈ head (a ++ '.' :: e) ++ tail (a ++ '.' :: e)
    · cases n with
      | zero =>
        rw [files, List.range_zero, List.mapM_nil, pure_eq_ok] at hl
        injection hl with hl
        rw [← hl] at hs
        exact absurd hs List.not_mem_nil
      | succ n =>
        rw [files, List.range_succ_eq_map, List.mapM_cons, fileName, if_pos hp, error_bind] at hl
        exact absurd hl (by simp)
    · have := TreeIndex.mapM_ok_of (fileName (a ++ '.' :: e)) (fun t => head (a ++ '.' :: e) ++ dec t ++ tail (a ++ '.' :: e)) (List.range n)
        (fun t _ => by rw [fileName, if_neg hp])
      rw [files, this] at hl
      injection hl with hl
      rw [← hl] at hs
      obtain ⟨t, _, rfl⟩ := List.mem_map.1 hs
      exact ⟨t, by rw [fileName, if_neg hp]⟩
  rw [fileName] at ht
  split at ht
  · exact absurd ht (by simp)
  · injection ht with ht
    rw [← ht, List.append_assoc]
    exact (hx e he).trans (List.prefix_append _ _)

example : files "d2/a_9.grv".toList 3 = .ok ["d2/a_0.grv".toList, "d2/a_1.grv".toList, "d2/a_2.grv".toList] ∧
    files "a_009.grv".toList 2 = .ok ["a_0.grv".toList, "a_1.grv".toList] ∧
    files "a_9.mp4".toList 2 = .ok ["a_9.mp0".toList, "a_9.mp1".toList] := by decide +kernel

example : (∀ c, "d2/a_".toList.getLast? = some c → isDig c = false) ∧ (∀ c ∈ ".grv".toList, isDig c = false) ∧ '%' ∉ "d2/a_".toList ++ ".grv".toList ∧
    ∃ c ∈ "mp4".toList, isDig c = true := by
  refine ⟨fun c hc => ?_, by decide, by decide, ⟨'4', by decide, by decide⟩⟩
  have : "d2/a_".toList.getLast? = some '_' := by decide
  rw [this] at hc
  injection hc with hc
  rw [← hc]
  decide

end BooSerie
end Mains
end Colloids
