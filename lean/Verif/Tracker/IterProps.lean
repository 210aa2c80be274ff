import Verif.Tracker.IterModel
import Verif.Lif.SerieProps
import Verif.CommonLemmas
import Mathlib.Algebra.BigOperators.Group.List.Basic

/-! # The centers of each time step: C104 -/

namespace Colloids
namespace Tracker

open Lif (Serie Header Byte IFile)

variable {I P C : Type}

/-! ## What a user expects -/

/-- The bytes of a time step. -/
def frame (s : Serie) (n inc t : Nat) : List Byte := (s.file.bytes.drop (s.offset + inc * t)).take n

/-- What a user follows: the time step, the parameters, and the parameters for which the centers of this time step were
first asked. -/
structure Follow (P : Type) where
  time : Nat
  param : P
  asked : Option P

/-- One operation. -/
def Follow.step (w : Follow P) : IterOp P → Follow P
  | .next => ⟨w.time + 1, w.param, none⟩
  | .seek t => ⟨t, w.param, none⟩
  | .deref => ⟨w.time, w.param, some (w.asked.getD w.param)⟩
  | .set p => ⟨w.time, p, w.asked⟩

/-- The time steps of which the centers are asked, with the parameters. -/
def Follow.visits (w : Follow P) : List (IterOp P) → List (Nat × P)
  | [] => []
  | .deref :: ops => (w.time, w.asked.getD w.param) :: (w.step .deref).visits ops
  | op :: ops => (w.step op).visits ops

/-- The sequence goes no further than the end of the series. -/
def Follow.Within (nb : Nat) (w : Follow P) : List (IterOp P) → Prop
  | [] => True
  | .next :: ops => w.time < nb ∧ (w.step .next).Within nb ops
  | .seek t :: ops => t < nb ∧ (w.step (.seek t)).Within nb ops
  | op :: ops => (w.step op).Within nb ops

/-- The centers of a time step: those of its bytes, none from the end of the series on. -/
def centersOf (conv : List Byte → I) (track : P → I → C × I) (empty : C) (s : Serie) (n inc : Nat)
    (q : Nat × P) : C :=
  if q.1 < s.nbTimeSteps then (track q.2 (conv (frame s n inc q.1))).1 else empty

/-! ## Lemmas -/

theorem fillFrom_inside (n : Nat) (conv : List Byte → I) (f : IFile) (h : f.pos + n ≤ f.bytes.length) :
    fillFrom n conv f = .ok (conv ((f.bytes.drop f.pos).take n), { f with pos := f.pos + n }) := by
  unfold fillFrom
  rw [if_pos (.inl h)]

theorem seek_good (f : IFile) (hf : f.failed = false) (o : Nat) (ho : o < 2 ^ 63) :
    f.seek o = { bytes := f.bytes, pos := o, failed := false } := by
  unfold IFile.seek
  have hm : o % 2 ^ 64 = o := Nat.mod_eq_of_lt (by omega)
  rw [if_neg (by simp [hf]), if_neg (by omega), hm]
  cases f
  simp_all

/-- The state agrees with what the user follows. -/
structure Agree (conv : List Byte → I) (track : P → I → C × I) (empty : C) (s0 : Serie) (n : Nat)
    (w : Follow P) (s : LifIter I P C) : Prop where
  header : s.serie.toHeader = s0.toHeader
  offset : s.serie.offset = s0.offset
  bytes : s.serie.file.bytes = s0.file.bytes
  ok : s.serie.file.failed = false
  size : s.n = n
  time : s.time = w.time
  param : s.param = w.param
  bound : w.time ≤ s0.nbTimeSteps
  pos : w.time < s0.nbTimeSteps → s.serie.file.pos = s0.offset + n * (w.time + 1)
  image : w.time < s0.nbTimeSteps → w.asked = none → s.image = conv (frame s0 n n w.time)
  known : ∀ p, w.asked = some p → s.centers = some (centersOf conv track empty s0 n n (w.time, p))
  unknown : w.asked = none → s.centers = none

theorem Agree.good {conv : List Byte → I} {track : P → I → C × I} {empty : C} {s0 : Serie} {n : Nat}
    {w : Follow P} {s : LifIter I P C} (h : Agree conv track empty s0 n w s) (hs : s0.Good n) :
    s.serie.Good n where
  ok := h.ok
  inside := by
    have := hs.inside
    rw [h.offset, h.bytes, h.header]; exact this
  small := by rw [h.bytes]; exact hs.small
  inc := by rw [h.header]; exact hs.inc

/-- What follows the series in the file: nothing, or at least the size of a time step. -/
def Room (s : Serie) (n : Nat) : Prop :=
  s.offset + n * s.nbTimeSteps = s.file.bytes.length ∨ s.offset + n * (s.nbTimeSteps + 1) ≤ s.file.bytes.length

theorem seek_agree {conv : List Byte → I} {track : P → I → C × I} {empty : C} {s0 : Serie} {n : Nat}
    (hs : s0.Good n) (w : Follow P) (s : LifIter I P C) (hh : s.serie.toHeader = s0.toHeader)
    (ho : s.serie.offset = s0.offset) (hb : s.serie.file.bytes = s0.file.bytes)
    (hok : s.serie.file.failed = false) (hn : s.n = n) (hp : s.param = w.param) (t : Nat)
    (ht : t < s0.nbTimeSteps) :
    ∃ s', s.seek conv t = .ok s' ∧ Agree conv track empty s0 n (w.step (.seek t)) s' := by
  have hg : s.serie.Good n :=
    ⟨hok, by rw [ho, hb, hh]; exact hs.inside, by rw [hb]; exact hs.small, by rw [hh]; exact hs.inc⟩
  have h1 := hs.inside
  have h2 := hs.small
  have h3 : n * (t + 1) ≤ n * s0.nbTimeSteps := Nat.mul_le_mul_left _ (by omega)
  rw [Nat.mul_succ] at h3
  have hoff := Lif.getOffset_good s.serie n hg t (by rw [hh]; exact ht)
  refine ⟨{ s with
      serie := { s.serie with
        file := { bytes := s.serie.file.bytes, pos := s.serie.offset + n * t + n, failed := false } },
      image := conv (frame s0 n n t), time := t, centers := none }, ?_, ?_⟩
  · unfold LifIter.seek
    rw [hoff, ok_bind, seek_good _ hok _ (by rw [ho]; omega), hn,
      fillFrom_inside _ _ _ (by simp only [ho, hb]; omega), ok_bind]
    simp only [pure_eq_ok, frame, ho, hb]
  · refine ⟨hh, ho, hb, rfl, hn, rfl, hp, ?_, ?_, ?_, ?_, ?_⟩
    · show t ≤ _; omega
    · intro _
      show s.serie.offset + n * t + n = s0.offset + n * (t + 1)
      rw [ho, Nat.mul_succ]; omega
    · intro _ _; rfl
    · intro p hp'; exact absurd hp' (by simp [Follow.step])
    · intro _; rfl

theorem next_agree {conv : List Byte → I} {track : P → I → C × I} {empty : C} {s0 : Serie} {n : Nat}
    (hs : s0.Good n) (hn0 : 0 < n) (hroom : Room s0 n) (w : Follow P) (s : LifIter I P C)
    (h : Agree conv track empty s0 n w s) (hw : w.time < s0.nbTimeSteps) :
    ∃ s', s.next conv = .ok s' ∧ Agree conv track empty s0 n (w.step .next) s' := by
  have h1 := hs.inside
  have hpos := h.pos hw
  have build : ∀ im f, s.advance conv = .ok (im, f) → f.bytes = s0.file.bytes → f.failed = false →
      (w.time + 1 < s0.nbTimeSteps → f.pos = s0.offset + n * (w.time + 2)
        ∧ im = conv (frame s0 n n (w.time + 1))) →
      ∃ s', s.next conv = .ok s' ∧ Agree conv track empty s0 n (w.step .next) s' := by
    intro im f hadv hfb hff hfi
    refine ⟨{ s with serie := { s.serie with file := f }, image := im, time := s.time + 1, centers := none },
      ?_, ?_⟩
    · unfold LifIter.next
      rw [hadv, ok_bind]
      rfl
    · refine ⟨h.header, h.offset, hfb, hff, h.size, ?_, h.param, hw, ?_, ?_, ?_, ?_⟩
      · show s.time + 1 = w.time + 1; rw [h.time]
      · intro hlt; exact (hfi hlt).1
      · intro hlt _; exact (hfi hlt).2
      · intro p hp'; exact absurd hp' (by simp [Follow.step])
      · intro _; rfl
  have hadv : s.serie.file.pos + n ≤ s.serie.file.bytes.length →
      s.serie.file.pos < s.serie.file.bytes.length →
      s.advance conv = .ok (conv ((s.serie.file.bytes.drop s.serie.file.pos).take n),
        { s.serie.file with pos := s.serie.file.pos + n }) := by
    intro hle hlt
    unfold LifIter.advance
    rw [if_pos hlt, h.size, fillFrom_inside _ _ _ hle]
  have hframe : conv ((s.serie.file.bytes.drop s.serie.file.pos).take n) = conv (frame s0 n n (w.time + 1)) := by
    unfold frame
    rw [h.bytes, hpos]
  have hstay : ¬ s.serie.file.pos < s.serie.file.bytes.length →
      s.advance conv = .ok (s.image, s.serie.file) := by
    intro hge
    unfold LifIter.advance
    rw [if_neg hge]
  by_cases hlt : s.serie.file.pos < s.serie.file.bytes.length
  · have hle : s.serie.file.pos + n ≤ s.serie.file.bytes.length := by
      rw [h.bytes, hpos] at hlt ⊢
      have e : n * (w.time + 2) = n * (w.time + 1) + n := by rw [← Nat.mul_succ]
      by_cases hc : w.time + 1 < s0.nbTimeSteps
      · have : n * (w.time + 2) ≤ n * s0.nbTimeSteps := Nat.mul_le_mul_left _ (by omega)
        omega
      · have hw1 : w.time + 1 = s0.nbTimeSteps := by omega
        rcases hroom with hr | hr
        · rw [hw1] at hlt; omega
        · rw [← hw1, show w.time + 1 + 1 = w.time + 2 from rfl] at hr; omega
    refine build _ _ (hadv hle hlt) h.bytes h.ok (fun _ => ⟨?_, hframe⟩)
    show s.serie.file.pos + n = _
    rw [hpos]
    have e : n * (w.time + 2) = n * (w.time + 1) + n := by rw [← Nat.mul_succ]
    omega
  · refine build _ _ (hstay hlt) h.bytes h.ok (fun hc => ?_)
    rw [h.bytes, hpos] at hlt
    have e : n * (w.time + 2) = n * (w.time + 1) + n := by rw [← Nat.mul_succ]
    have : n * (w.time + 2) ≤ n * s0.nbTimeSteps := Nat.mul_le_mul_left _ (by omega)
    omega

theorem deref_agree {conv : List Byte → I} {track : P → I → C × I} {empty : C} {s0 : Serie} {n : Nat}
    (w : Follow P) (s : LifIter I P C) (h : Agree conv track empty s0 n w s) :
    ∃ s', s.deref track empty s.serie.nbTimeSteps
        = (s', centersOf conv track empty s0 n n (w.time, w.asked.getD w.param))
      ∧ Agree conv track empty s0 n (w.step .deref) s' := by
  have hnb : s.serie.nbTimeSteps = s0.nbTimeSteps := by rw [h.header]
  unfold LifIter.deref
  cases ha : w.asked with
  | some p =>
    rw [h.known p ha]
    refine ⟨s, rfl, ⟨h.header, h.offset, h.bytes, h.ok, h.size, h.time, h.param, h.bound, h.pos, ?_, ?_, ?_⟩⟩
    · intro _ hx; exact absurd hx (by simp [Follow.step])
    · intro q hq
      have : q = p := by simpa [Follow.step, ha] using hq.symm
      subst this
      exact h.known q ha
    · intro hx; exact absurd hx (by simp [Follow.step])
  | none =>
    rw [h.unknown ha]
    simp only [hnb, h.time, Option.getD_none]
    by_cases hlt : w.time < s0.nbTimeSteps
    · rw [if_neg (by omega), h.image hlt ha, h.param]
      refine ⟨_, Prod.ext rfl ?_, ⟨h.header, h.offset, h.bytes, h.ok, h.size, rfl, rfl, h.bound, h.pos,
        ?_, ?_, ?_⟩⟩
      · simp [centersOf, hlt]
      · intro _ hx; exact absurd hx (by simp [Follow.step])
      · intro q hq
        have : q = w.param := by simpa [Follow.step, ha] using hq.symm
        subst this
        simp [centersOf, hlt, Follow.step]
      · intro hx; exact absurd hx (by simp [Follow.step])
    · rw [if_pos (by omega)]
      refine ⟨_, Prod.ext rfl ?_, ⟨h.header, h.offset, h.bytes, h.ok, h.size, rfl, h.param, h.bound, h.pos,
        ?_, ?_, ?_⟩⟩
      · simp [centersOf, hlt]
      · intro _ hx; exact absurd hx (by simp [Follow.step])
      · intro q _
        simp [centersOf, hlt, Follow.step]
      · intro hx; exact absurd hx (by simp [Follow.step])

theorem run_agree {conv : List Byte → I} {track : P → I → C × I} {empty : C} {s0 : Serie} {n : Nat}
    (hs : s0.Good n) (hn0 : 0 < n) (hroom : Room s0 n) (ops : List (IterOp P)) (w : Follow P)
    (s : LifIter I P C) (h : Agree conv track empty s0 n w s) (hw : w.Within s0.nbTimeSteps ops) :
    s.run conv track empty ops = .ok ((w.visits ops).map (centersOf conv track empty s0 n n)) := by
  induction ops generalizing w s with
  | nil => rfl
  | cons op ops ih =>
    unfold LifIter.run LifIter.step
    cases op with
    | next =>
      obtain ⟨s', e, h'⟩ := next_agree hs hn0 hroom w s h hw.1
      simp only [e, ok_bind, pure_eq_ok, ih _ s' h' hw.2]
      rfl
    | seek t =>
      obtain ⟨s', e, h'⟩ := seek_agree (track := track) (empty := empty) (conv := conv) hs w s h.header h.offset
        h.bytes h.ok h.size h.param t hw.1
      simp only [e, ok_bind, pure_eq_ok, ih _ s' h' hw.2]
      rfl
    | deref =>
      obtain ⟨s', e, h'⟩ := deref_agree w s h
      simp only [e, ok_bind, pure_eq_ok, ih _ s' h' hw]
      rfl
    | set p =>
      have h' : Agree conv track empty s0 n (w.step (.set p)) { s with param := p } :=
        ⟨h.header, h.offset, h.bytes, h.ok, h.size, h.time, rfl, h.bound, h.pos, h.image, h.known, h.unknown⟩
      simp only [ok_bind, pure_eq_ok, ih _ _ h' hw]
      rfl

/-! ## Statements -/

/-- **C104** (image): the dimensions of the tracker are those of the series backward, completed with 1 in front; it has
as many pixels as a time step. -/
theorem C104_dims (h : Header) (hd : h.spatialDimensions.length ≤ 3) :
    ∃ d, trackerDims h = .ok d ∧ d.length = 3 ∧ d.prod = h.spatialDimensions.prod
      ∧ (∀ i, i < h.spatialDimensions.length → d[2 - i]? = h.spatialDimensions[i]?)
      ∧ ∀ i, i < 3 → h.spatialDimensions.length ≤ i → d[2 - i]? = some 1 := by
  unfold trackerDims
  simp only
  generalize h.spatialDimensions = l at *
  rw [if_neg (by omega)]
  refine ⟨_, rfl, by simp; omega, by simp [List.prod_reverse], ?_, ?_⟩
  · intro i hi
    rw [List.getElem?_append_right (by simp; omega), List.getElem?_reverse (by simp; omega)]
    congr 1
    simp only [List.length_replicate]
    omega
  · intro i h3 hi
    rw [List.getElem?_append_left (by simp; omega), List.getElem?_replicate, if_pos (by omega)]

/-- **C104** (any sequence of operations): for a series of one channel with time steps one after the other, going
forward, jumping and asking for the centers in any order gives, each time, the centers of the bytes of the current time
step. They are computed once per visit, with the parameters of the first time they are asked. -/
theorem C104_sequence (conv : List Byte → I) (track : P → I → C × I) (empty : C) (serie : Serie) (n : Nat)
    (hs : serie.Good n) (hn : n = serie.spatialDimensions.prod) (hn0 : 0 < n)
    (hd : serie.spatialDimensions.length ≤ 3) (hnb : 0 < serie.nbTimeSteps) (hroom : Room serie n) (junk : I)
    (p : P) (ops : List (IterOp P)) (hw : Follow.Within serie.nbTimeSteps ⟨0, p, none⟩ ops) :
    ∃ s : LifIter I P C, LifIter.make conv serie junk p = .ok s
      ∧ s.run conv track empty ops
        = .ok ((Follow.visits ⟨0, p, none⟩ ops).map (centersOf conv track empty serie n n)) := by
  obtain ⟨d, hd1, -, hprod, -⟩ := C104_dims serie.toHeader hd
  obtain ⟨s', e, h'⟩ := seek_agree (conv := conv) (track := track) (empty := empty) hs ⟨0, p, none⟩
    (⟨serie, d.prod, junk, p, 0, none⟩ : LifIter I P C) rfl rfl rfl hs.ok (by rw [hprod, hn]) rfl 0 hnb
  refine ⟨s', ?_, run_agree hs hn0 hroom ops ⟨0, p, none⟩ s' h' hw⟩
  unfold LifIter.make
  rw [hd1, ok_bind, e]

/-- Two time steps of 2 pixels, at the end of the file. -/
def smallSerie : Serie :=
  { dimensions := [("T", ⟨4, 2, 2⟩), ("X", ⟨1, 2, 1⟩)], channels := [8], offset := 1, memorySize := 4,
    file := { bytes := [9, 1, 2, 3, 4], pos := 5 } }

example : smallSerie.Good 2 ∧ 2 = smallSerie.spatialDimensions.prod ∧ smallSerie.spatialDimensions.length ≤ 3
    ∧ 0 < smallSerie.nbTimeSteps ∧ Room smallSerie 2
    ∧ Follow.Within smallSerie.nbTimeSteps (⟨0, (), none⟩ : Follow Unit)
      [.deref, .next, .deref, .deref, .next, .deref, .seek 0, .deref] := by
  refine ⟨⟨rfl, by decide, by decide, ?_⟩, by decide, by decide, by decide, .inl (by decide), ?_⟩
  · intro d hd
    have : Lif.mapFind "T" smallSerie.dimensions = some ⟨4, 2, 2⟩ := by decide
    rw [this] at hd
    injection hd with hd
    rw [← hd]
  · simp only [Follow.Within, Follow.step]
    decide

/-- **C104** (walk): from the first time step to the end, each centers are asked once. -/
theorem C104_walk (conv : List Byte → I) (track : P → I → C × I) (empty : C) (serie : Serie) (n : Nat)
    (hs : serie.Good n) (hn : n = serie.spatialDimensions.prod) (hn0 : 0 < n)
    (hd : serie.spatialDimensions.length ≤ 3) (hnb : 0 < serie.nbTimeSteps) (hroom : Room serie n) (junk : I)
    (p : P) :
    ∃ s : LifIter I P C, LifIter.make conv serie junk p = .ok s
      ∧ s.run conv track empty ((List.range serie.nbTimeSteps).flatMap (fun _ => [.deref, .next]))
        = .ok ((List.range serie.nbTimeSteps).map
            (fun t => (track p (conv (frame serie n n t))).1)) := by
  have key : ∀ (l : List Nat) (k : Nat), k + l.length ≤ serie.nbTimeSteps →
      Follow.Within serie.nbTimeSteps ⟨k, p, none⟩ (l.flatMap (fun _ => [.deref, .next]))
      ∧ Follow.visits ⟨k, p, none⟩ (l.flatMap (fun _ => [.deref, .next]))
        = (List.range l.length).map (fun i => (k + i, p)) := by
    intro l
    induction l with
    | nil => intro k _; exact ⟨trivial, rfl⟩
    | cons a l ih =>
      intro k hk
      simp only [List.length_cons] at hk
      obtain ⟨i1, i2⟩ := ih (k + 1) (by omega)
      refine ⟨⟨by show k < _; omega, i1⟩, ?_⟩
      rw [List.length_cons, List.range_succ_eq_map, List.map_cons, List.map_map]
      show (k, p) :: Follow.visits ⟨k + 1, p, none⟩ (l.flatMap (fun _ => [IterOp.deref, IterOp.next])) = _
      rw [i2]
      simp only [Nat.add_zero, List.cons.injEq, true_and]
      apply List.map_congr_left
      intro i _
      simp only [Function.comp_apply, Prod.mk.injEq, and_true]
      omega
  obtain ⟨k1, k2⟩ := key (List.range serie.nbTimeSteps) 0 (by simp)
  obtain ⟨s, h1, h2⟩ := C104_sequence conv track empty serie n hs hn hn0 hd hnb hroom junk p _ k1
  refine ⟨s, h1, ?_⟩
  rw [h2, k2, List.map_map, List.length_range]
  refine congrArg Except.ok (List.map_congr_left fun t ht => ?_)
  simp only [Function.comp_apply, centersOf, Nat.zero_add, if_pos (List.mem_range.1 ht)]

/-- **C104** (outside): a time step after the end is refused. -/
theorem C104_refused (conv : List Byte → I) (s : LifIter I P C) (t : Nat) (ht : s.serie.nbTimeSteps ≤ t) :
    s.seek conv t = .error .outOfRange := by
  unfold LifIter.seek Serie.getOffset
  rw [if_pos ht]
  rfl

/-- **C104** (jump): jumping to a time step reads the first bytes of this time step, whatever the number of channels
and whatever the state before. -/
theorem C104_jump (conv : List Byte → I) (track : P → I → C × I) (empty : C) (s : LifIter I P C) (inc : Nat)
    (hs : s.serie.Good inc) (hn : s.n ≤ inc) (t : Nat) (ht : t < s.serie.nbTimeSteps) :
    s.run conv track empty [.seek t, .deref] = .ok [(track s.param (conv (frame s.serie s.n inc t))).1] := by
  have h1 := hs.inside
  have h2 := hs.small
  have h3 : inc * (t + 1) ≤ inc * s.serie.nbTimeSteps := Nat.mul_le_mul_left _ (by omega)
  rw [Nat.mul_succ] at h3
  have hoff := Lif.getOffset_good s.serie inc hs t ht
  have e : s.seek conv t = .ok { s with
      serie := { s.serie with
        file := { bytes := s.serie.file.bytes, pos := s.serie.offset + inc * t + s.n, failed := false } },
      image := conv (frame s.serie s.n inc t), time := t, centers := none } := by
    unfold LifIter.seek
    rw [hoff, ok_bind, seek_good _ hs.ok _ (by omega), fillFrom_inside _ _ _ (by simp only; omega), ok_bind]
    rfl
  unfold LifIter.run LifIter.step
  simp only [e, ok_bind, pure_eq_ok]
  unfold LifIter.run LifIter.step LifIter.deref
  simp only [ok_bind, pure_eq_ok]
  have ht' : ¬ s.serie.nbTimeSteps ≤ t := by omega
  simp [ht', LifIter.run, ok_bind]

/-- **C104** (counterexample, channels): with several channels a time step has more bytes than the image has pixels, and
`operator++` goes on from the byte where it stopped: the image is not the one of the next time step but the next bytes
of the same one. -/
theorem C104_channels_counterexample (conv : List Byte → I) (track : P → I → C × I) (empty : C)
    (s : LifIter I P C) (inc : Nat) (hs : s.serie.Good inc) (hn0 : 0 < s.n) (hn : 2 * s.n ≤ inc)
    (hnb : 1 < s.serie.nbTimeSteps) :
    s.run conv track empty [.seek 0, .next, .deref]
      = .ok [(track s.param (conv ((s.serie.file.bytes.drop (s.serie.offset + s.n)).take s.n))).1] := by
  have h1 := hs.inside
  have h2 := hs.small
  have h3 : inc * 1 ≤ inc * s.serie.nbTimeSteps := Nat.mul_le_mul_left _ (by omega)
  have hoff := Lif.getOffset_good s.serie inc hs 0 (by omega)
  have e : s.seek conv 0 = .ok { s with
      serie := { s.serie with
        file := { bytes := s.serie.file.bytes, pos := s.serie.offset + s.n, failed := false } },
      image := conv (frame s.serie s.n inc 0), time := 0, centers := none } := by
    unfold LifIter.seek
    rw [hoff, ok_bind, seek_good _ hs.ok _ (by omega), fillFrom_inside _ _ _ (by simp only; omega), ok_bind]
    rfl
  have hlt : s.serie.offset + s.n < s.serie.file.bytes.length := by omega
  have hle : s.serie.offset + s.n + s.n ≤ s.serie.file.bytes.length := by omega
  have ht' : ¬ s.serie.nbTimeSteps ≤ 1 := by omega
  unfold LifIter.run LifIter.step
  simp only [e, ok_bind, pure_eq_ok]
  unfold LifIter.run LifIter.step LifIter.next LifIter.advance
  simp only [hlt, if_true]
  rw [fillFrom_inside _ _ _ hle]
  simp only [ok_bind, pure_eq_ok]
  unfold LifIter.run LifIter.step LifIter.deref
  simp [ht', LifIter.run, ok_bind, pure_eq_ok]

/-- Two time steps of 2 pixels and 2 channels: the bytes taken for the second time step are not its bytes. -/
def twoChannels : Serie :=
  { dimensions := [("T", ⟨4, 2, 4⟩), ("X", ⟨1, 2, 1⟩)], channels := [8, 8], offset := 0, memorySize := 8,
    file := { bytes := [1, 2, 3, 4, 5, 6, 7, 8], pos := 0 } }

example : (twoChannels.file.bytes.drop (twoChannels.offset + 2)).take 2 = [3, 4]
    ∧ frame twoChannels 2 4 1 = [5, 6] ∧ 1 < twoChannels.nbTimeSteps := by decide

example : twoChannels.Good 4 := by
  refine ⟨rfl, by decide, by decide, fun d hd => ?_⟩
  have : Lif.mapFind "T" twoChannels.dimensions = some ⟨4, 2, 4⟩ := by decide
  rw [this] at hd
  injection hd with hd
  rw [← hd]

/-- **C104** (counterexample, end): if fewer bytes than a time step follow the series in the file, going from the last
time step to the end reads after the end of the file. -/
theorem C104_end_counterexample (conv : List Byte → I) (s : LifIter I P C)
    (h1 : s.serie.file.pos < s.serie.file.bytes.length)
    (h2 : s.serie.file.bytes.length < s.serie.file.pos + s.n) (hn : s.n ≠ 0) :
    s.next conv = .error .ub := by
  unfold LifIter.next LifIter.advance fillFrom
  rw [if_pos h1, if_neg (by omega)]
  rfl

/-- One byte after the series of `smallSerie`, at the last time step. -/
example : (5 : Nat) < [9, 1, 2, 3, 4, 0].length ∧ [9, 1, 2, 3, 4, 0].length < 5 + 2 := by decide

/-- **C104** (counterexample, parameters): a threshold or a filter set after the centers were asked has no effect until
the time step changes. -/
theorem C104_param_counterexample (conv : List Byte → I) (track : P → I → C × I) (empty : C)
    (s : LifIter I P C) (q : P) (hc : s.centers = none) (hlt : s.time < s.serie.nbTimeSteps) :
    s.run conv track empty [.deref, .set q, .deref]
      = .ok [(track s.param s.image).1, (track s.param s.image).1] := by
  have h : ¬ s.serie.nbTimeSteps ≤ s.time := by omega
  simp [LifIter.run, LifIter.step, LifIter.deref, hc, h, ok_bind, pure_eq_ok]

example : (⟨smallSerie, 2, 0, 0, 0, none⟩ : LifIter Nat Nat Nat).time < smallSerie.nbTimeSteps := by decide

/-- **C104** (counterexample, `SerieTracker`): `length` is never set by the constructor of `SerieTracker`; if the memory
happens to hold 0, no centers are found in any image. -/
theorem C104_length_counterexample (track : P → I → C × I) (empty : C) (s : LifIter I P C)
    (hc : s.centers = none) : (s.deref track empty 0).2 = empty := by
  unfold LifIter.deref
  rw [hc]
  simp

/-- **C104** (counterexample, dimensions): a fourth spatial dimension is written outside of the array. -/
theorem C104_dims_counterexample (h : Header) (hd : 3 < h.spatialDimensions.length) :
    trackerDims h = .error .ub := by
  unfold trackerDims
  simp only [hd, if_true]

end Tracker
end Colloids
