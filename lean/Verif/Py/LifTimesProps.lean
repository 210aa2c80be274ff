import Verif.Py.LifModel
import Verif.CommonLemmas
import Mathlib.Tactic.FieldSimp
import Mathlib.Tactic.NormNum
import Mathlib.Data.Rat.Lemmas

/-! # C160 and C162: the times of a series, and the choices of the user -/

namespace Colloids
namespace PyLif

/-! ## C160 -/

/-- C160. The first time they are asked for, the time stamps of an older file are those of its elements, in the order of the file: the two
halves of 32 bits put together. Those of a newer file are the numbers of the text, however many times they are asked for. -/
theorem C160_first_partial {G : Type} (e : Times G) (declared : Option Int) (text : List Nat) (more : List (Option Int × List Nat))
    (he : e.lists = (declared, text) :: more) :
    ((∀ k, declared = some k → k ≤ 0) →
      ∃ l e', getTimeStamps e = .ok (l, e') ∧ l.length = e.stamps.length
        ∧ ∀ (i high low : Nat), e.stamps[i]? = some (high, low) → l[i]? = some (high * 2 ^ 32 + low))
    ∧ (∀ k, declared = some k → 0 < k → getTimeStamps e = .ok (text, e)) := by
  constructor
  · intro h
    refine ⟨e.stamps.map fun x => x.1 <<< 32 + x.2, { e with stamps := [] }, ?_, by simp, ?_⟩
    · unfold getTimeStamps
      rw [he]
      cases declared with
      | none => rfl
      | some k => simp [not_lt.2 (h k rfl)]
    · intro i high low hi
      simp [hi, Nat.shiftLeft_eq]
  · rintro k rfl hk
    unfold getTimeStamps
    rw [he]
    simp [hk]

example : getTimeStamps (⟨[(1, 5), (2, 7)], [(0 : ℚ), 3], [(none, [])]⟩ : Times ℚ)
    = .ok ([4294967301, 8589934599], ⟨[], [0, 3], [(none, [])]⟩) := by rfl

/-- C160 fails from the second time on: the elements have been removed from the XML and what was computed is not found again, so that the time
stamps of an older file are an empty array. The same for the relative time stamps. -/
theorem C160_twice_counterexample {G : Type} (e : Times G) (declared : Option Int) (text : List Nat) (more : List (Option Int × List Nat))
    (he : e.lists = (declared, text) :: more) (h : ∀ k, declared = some k → k ≤ 0) :
    (∃ l e', getTimeStamps e = .ok (l, e') ∧ getTimeStamps e' = .ok ([], e') ∧ (e.stamps ≠ [] → l ≠ []))
    ∧ (getRelativeTimeStamps e).1 = e.rel ∧ (getRelativeTimeStamps (getRelativeTimeStamps e).2).1 = [] := by
  refine ⟨⟨e.stamps.map fun x => x.1 <<< 32 + x.2, { e with stamps := [] }, ?_, ?_, ?_⟩, rfl, rfl⟩
  · unfold getTimeStamps
    rw [he]
    cases declared with
    | none => rfl
    | some k => simp [not_lt.2 (h k rfl)]
  · unfold getTimeStamps
    simp only [he]
    cases declared with
    | none => rfl
    | some k => simp [not_lt.2 (h k rfl)]
  · intro h0 h1
    exact h0 (List.map_eq_nil_iff.1 h1)

/-- C160 fails for a `Reader`, with `quick` or without: it has removed the elements before the user can ask. A user of `quick=False`, that is
meant to keep the time stamps, gets empty arrays for an older file. -/
theorem C160_reader_counterexample {G : Type} (quick : Bool) (e e' : Times G) (h : openTimes quick e = .ok e') :
    (getRelativeTimeStamps e').1 = [] ∧ ∀ l e'', (∀ x ∈ e'.lists.head?, ∀ k, x.1 = some k → k ≤ 0) → getTimeStamps e' = .ok (l, e'') → l = [] := by
  have key : e'.rel = [] ∧ ((∀ x ∈ e'.lists.head?, ∀ k, x.1 = some k → k ≤ 0) → e'.stamps = []) := by
    unfold openTimes at h
    cases quick with
    | true =>
      simp only [if_true] at h
      have := Except.ok.inj h
      subst this
      exact ⟨rfl, fun _ => rfl⟩
    | false =>
      simp only [Bool.false_eq_true, if_false] at h
      obtain ⟨a, ha, h⟩ := (bind_ok).1 h
      rw [pure_eq_ok] at h
      have := Except.ok.inj h
      subst this
      refine ⟨rfl, fun hk => ?_⟩
      unfold getTimeStamps at ha
      revert ha
      match hl : e.lists with
      | [] => intro ha; cases ha
      | (none, text) :: more =>
        intro ha
        have := Except.ok.inj ha
        subst this
        rfl
      | (some k, text) :: more =>
        intro ha
        by_cases hk0 : 0 < k
        · simp only [if_pos hk0] at ha
          have := Except.ok.inj ha
          subst this
          have := hk (some k, text) (by simp [getRelativeTimeStamps, hl]) k rfl
          omega
        · simp only [if_neg hk0] at ha
          have := Except.ok.inj ha
          subst this
          rfl
  refine ⟨key.1, fun l e'' hk hl => ?_⟩
  have hst := key.2 hk
  unfold getTimeStamps at hl
  revert hl
  match hls : e'.lists with
  | [] => intro hl; cases hl
  | (none, text) :: more =>
    intro hl
    have := Except.ok.inj hl
    rw [hst] at this
    exact (Prod.mk.inj this).1.symm
  | (some k, text) :: more =>
    intro hl
    have hk0 : ¬ 0 < k := not_lt.2 (hk (some k, text) (by simp [hls]) k rfl)
    simp only [if_neg hk0] at hl
    have := Except.ok.inj hl
    rw [hst] at this
    exact (Prod.mk.inj this).1.symm

example : openTimes false (⟨[(1, 5)], [(0 : ℚ)], [(none, [])]⟩ : Times ℚ) = .ok ⟨[], [], [(none, [])]⟩ := by rfl

/-- C160. Without a list of time stamps: `IndexError`. -/
theorem C160_missing {G : Type} (e : Times G) (h : e.lists = []) : getTimeStamps e = .error .outOfRange := by
  unfold getTimeStamps
  rw [h]

/-- C160. With one dimension of time of `n` steps, `n` at least 2, the time lapse is such that `n - 1` of them make the duration; it is 0 with
one step or no dimension of time. -/
theorem C160_time_lapse {G : Type} [Field G] [CharZero G] (before after : List (Dim × G)) (d : Dim × G) (h4 : d.1.id = 4) (hn : 1 ≤ d.1.n)
    (hk : ∀ x ∈ before ++ after, 1 ≤ x.1.id ∧ x.1.id ≤ 8 ∧ x.1.id ≠ 4) :
    (∃ dt, timeLapse (before ++ d :: after) = .ok dt ∧ (d.1.n = 1 → dt = 0) ∧ (2 ≤ d.1.n → dt * ((d.1.n - 1 : Nat) : G) = d.2))
    ∧ timeLapse (before ++ after) = .ok 0 := by
  have hfold : ∀ (l : List (Dim × G)) (a : Nat), (∀ x ∈ l, x.1.id ≠ 4) →
      l.foldl (fun acc d => if d.1.id = 4 then d.1.n else acc) a = a := by
    intro l
    induction l with
    | nil => intros; rfl
    | cons x l ih =>
      intro a hl
      rw [List.foldl_cons, if_neg (hl x (by simp))]
      exact ih a fun y hy => hl y (by simp [hy])
  have hname : ∀ x : Dim × G, 1 ≤ x.1.id → x.1.id ≤ 8 → x.1.id ≠ 4 → ∃ s, dimName x.1.id = .ok s ∧ s ≠ "T" := by
    intro x h1 h8 h4
    unfold dimName
    rcases (by omega : x.1.id = 1 ∨ x.1.id = 2 ∨ x.1.id = 3 ∨ x.1.id = 5 ∨ x.1.id = 6 ∨ x.1.id = 7 ∨ x.1.id = 8)
      with h | h | h | h | h | h | h <;> rw [h] <;> exact ⟨_, rfl, by decide⟩
  have hdur : ∀ (l : List (Dim × G)) (a : G), (∀ x ∈ l, 1 ≤ x.1.id ∧ x.1.id ≤ 8 ∧ x.1.id ≠ 4) →
      l.foldlM (fun acc d => do
        let name ← dimName d.1.id
        pure (if name = "T" then d.2 else acc)) a = (.ok a : R G) := by
    intro l
    induction l with
    | nil => intros; rfl
    | cons x l ih =>
      intro a hl
      obtain ⟨s, hs, hT⟩ := hname x (hl x (by simp)).1 (hl x (by simp)).2.1 (hl x (by simp)).2.2
      rw [List.foldlM_cons, hs, ok_bind, if_neg hT, pure_eq_ok, ok_bind]
      exact ih a fun y hy => hl y (by simp [hy])
  have hb : ∀ x ∈ before, 1 ≤ x.1.id ∧ x.1.id ≤ 8 ∧ x.1.id ≠ 4 := fun x hx => hk x (by simp [hx])
  have ha : ∀ x ∈ after, 1 ≤ x.1.id ∧ x.1.id ≤ 8 ∧ x.1.id ≠ 4 := fun x hx => hk x (by simp [hx])
  constructor
  · have hnb : (before ++ d :: after).foldl (fun acc d => if d.1.id = 4 then d.1.n else acc) 1 = d.1.n := by
      rw [List.foldl_append, List.foldl_cons, if_pos h4, hfold _ _ fun x hx => (ha x hx).2.2]
    have htot : totalDuration (before ++ d :: after) = .ok d.2 := by
      unfold totalDuration
      rw [List.foldlM_append, hdur _ _ hb, ok_bind, List.foldlM_cons]
      have : dimName d.1.id = .ok "T" := by rw [h4]; rfl
      rw [this, ok_bind, if_pos rfl, pure_eq_ok, ok_bind, hdur _ _ ha]
    unfold timeLapse
    rw [hnb]
    by_cases h1 : d.1.n = 1
    · exact ⟨0, by simp [h1], fun _ => rfl, fun h => by omega⟩
    · refine ⟨d.2 / ((d.1.n : G) - 1), by simp [h1, htot, ok_bind, pure_eq_ok], fun h => absurd h h1, fun h2 => ?_⟩
      have hc : ((d.1.n - 1 : Nat) : G) = (d.1.n : G) - 1 := by
        rw [Nat.cast_sub hn]; simp
      have hne : (d.1.n : G) - 1 ≠ 0 := by
        rw [← hc]
        exact_mod_cast (by omega : d.1.n - 1 ≠ 0)
      rw [hc]
      field_simp
  · unfold timeLapse
    rw [hfold _ _ fun x hx => (hk x hx).2.2]
    rfl

example : timeLapse [((⟨1, 512, 1⟩ : Dim), (3 : ℚ)), (⟨4, 11, 512⟩, 20)] = .ok 2 := by
  norm_num [timeLapse, totalDuration, dimName, ok_bind, pure_eq_ok]

/-! ## C162 -/

/-- Answers that `ask` does not take. -/
def Refused (len : Nat) (a : Option Int) : Prop := ∀ r, a = some r → r < 0 ∨ (len : Int) < r

theorem ask_refused (len : Nat) (l : List (Option Int)) (h : ∀ a ∈ l, Refused len a) (more : List (Option Int)) :
    ask len (l ++ more) = ask len more := by
  induction l with
  | nil => rfl
  | cons a l ih =>
    have hi := ih fun b hb => h b (by simp [hb])
    cases a with
    | none => exact hi
    | some r =>
      rw [List.cons_append, ask, if_pos (h _ (by simp) r rfl)]
      exact hi

theorem item_nat {α : Type} (l : List α) (i : Nat) (h : i < l.length) : item l (i : Int) = .ok l[i] := by
  unfold item
  have h0 : ¬ ((i : Int) < 0) := by omega
  simp only [if_neg h0]
  simp [h]

/-- C162. With two series or more, wrong answers are asked again and the first answer that is the number of a series gives that series; with
one series nothing is asked. -/
theorem C162_choose_partial {S : Type} (series : List S) (wrong : List (Option Int)) (hw : ∀ a ∈ wrong, ∀ r, a = some r → r < 0 ∨ (series.length : Int) < r)
    (i : Nat) (s : S) (hi : series[i]? = some s) (more : List (Option Int)) :
    (2 ≤ series.length → chooseSerie series (wrong ++ some (i : Int) :: more) = .ok s)
    ∧ (series.length = 1 → ∀ answers, chooseSerie series answers = .ok s) := by
  obtain ⟨hlt, rfl⟩ := List.getElem?_eq_some_iff.1 hi
  constructor
  · intro h2
    unfold chooseSerie chooseSerieIndex
    rw [if_neg (by omega), ask_refused _ _ hw, ask, if_neg (by omega), ok_bind]
    exact item_nat series i hlt
  · intro h1 answers
    have h0 : i = 0 := by omega
    subst h0
    unfold chooseSerie chooseSerieIndex
    rw [if_pos (by omega), ok_bind]
    exact item_nat series 0 hlt

example : chooseSerie ["a", "b", "c"] [none, some (-1), some 7, some 2] = .ok "c" := by rfl

/-- C162 fails for the number of series itself: it is taken as a good answer and an `IndexError` ends the program, instead of a new question.
Without series there is nothing to choose. -/
theorem C162_last_counterexample {S : Type} (series : List S) (more : List (Option Int)) :
    (2 ≤ series.length → chooseSerie series (some (series.length : Int) :: more) = .error .outOfRange)
    ∧ (series = [] → chooseSerie series more = .error .outOfRange) := by
  constructor
  · intro h2
    unfold chooseSerie chooseSerieIndex
    rw [if_neg (by omega), ask, if_neg (by omega), ok_bind]
    unfold item
    have h0 : ¬ ((series.length : Int) < 0) := by omega
    simp only [if_neg h0]
    simp
  · rintro rfl
    rfl

/-- C162. The number given by `chooseChannel` is not negative and not more than the number of channels. -/
theorem C162_channel_partial (len : Nat) (answers : List (Option Int)) (r : Int) (h : chooseChannel len answers = .ok r) :
    0 ≤ r ∧ r ≤ len ∧ some r ∈ answers := by
  unfold chooseChannel at h
  induction answers with
  | nil => cases h
  | cons a l ih =>
    cases a with
    | none => exact (ih h).imp_right fun h => h.imp_right fun h => by simp [h]
    | some q =>
      rw [ask] at h
      split at h
      · exact (ih h).imp_right fun h => h.imp_right fun h => by simp [h]
      · have := Except.ok.inj h
        subst this
        exact ⟨by omega, by omega, by simp⟩

/-- C162 fails for channels: a number that is not that of a channel is accepted, and the user is asked even when there is one channel. -/
theorem C162_channel_counterexample (len : Nat) : chooseChannel len [some (len : Int)] = .ok (len : Int)
    ∧ chooseChannel 1 [] = .error .logicError := by
  refine ⟨?_, rfl⟩
  unfold chooseChannel
  rw [ask, if_neg (by omega)]

/-- C162. A series without a preview marker is not a preview; with a marker whose attribute is not empty it is, and with an empty one it is not. -/
theorem C162_preview_partial (attachments : List (String × String)) :
    ((∀ a ∈ attachments, a.1 ≠ "PreviewMarker") → isPreview attachments = false)
    ∧ (∀ v, v ≠ "" → isPreview (("PreviewMarker", v) :: attachments) = true)
    ∧ isPreview (("PreviewMarker", "") :: attachments) = false
    ∧ ∀ name v, name ≠ "PreviewMarker" → isPreview ((name, v) :: attachments) = isPreview attachments := by
  refine ⟨?_, ?_, ?_, ?_⟩
  · intro h
    unfold isPreview
    rw [List.find?_eq_none.2 (by simpa using h)]
  · intro v hv
    simp [isPreview, hv]
  · simp [isPreview]
  · intro name v hn
    simp [isPreview, hn]

/-- C162 fails for a marker that says it is not a preview: any text is taken as true. -/
theorem C162_preview_counterexample (attachments : List (String × String)) :
    isPreview (("PreviewMarker", "0") :: attachments) = true ∧ isPreview (("PreviewMarker", "false") :: attachments) = true := by
  constructor <;> simp [isPreview]

end PyLif
end Colloids
