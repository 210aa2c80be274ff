import Verif.Parallel.SerieModel
import Mathlib.Tactic.Common

/-! # C137: whether the results of a time step go to the file of this step -/

namespace Colloids

namespace Parallel

/-- A thread at the beginning of an iteration. -/
def Fresh (m : Mode) (offset : Nat) (l : List Op) : Prop := ∃ rem : List Nat, l = rem.flatMap (m.prog offset)

/-- A thread and its format during an iteration, when nobody else uses the format between two calls. -/
def Ready (m : Mode) (offset : Nat) (f : Fmt) (w : Writer) : Prop :=
  Fresh m offset w.todo ∨
  (m = .firstprivate ∧ ∃ t l, Fresh m offset l ∧ w.todo = .feed (t + offset) :: .str :: .write t :: l ∧ f.cur = 0 ∧
    f.dumped = false) ∨
  (m = .firstprivate ∧ ∃ t l, Fresh m offset l ∧ w.todo = .str :: .write t :: l ∧ f.cur = 1 ∧ f.arg = some (t + offset)) ∨
  ∃ t l, Fresh m offset l ∧ w.todo = .write t :: l ∧ w.name = some (t + offset)

theorem ready_critical {offset : Nat} {f g : Fmt} {w : Writer} (h : Ready .critical offset f w) :
    Ready .critical offset g w := by
  rcases h with h | ⟨h, -⟩ | ⟨h, -⟩ | h
  · exact Or.inl h
  · cases h
  · cases h
  · exact Or.inr (Or.inr (Or.inr h))

/-- What is true at any time of a protected loop. -/
structure SerieInv (m : Mode) (offset size : Nat) (files : Nat → Option Nat) (s : Disk) : Prop where
  noError : s.error = none
  ready : ∀ (k : Nat) (w : Writer), s.threads[k]? = some w → Ready m offset (s.fmts (m.fmt k)) w
  pending : ∀ t < size, (∃ w ∈ s.threads, Op.write t ∈ w.todo) ∨ s.files (t + offset) = some t
  other : ∀ n, ¬ (offset ≤ n ∧ n < offset + size) → s.files n = files n
  range : ∀ w ∈ s.threads, ∀ t, Op.write t ∈ w.todo → t < size

theorem fresh_cons {m : Mode} {offset : Nat} {o : Op} {l : List Op} (h : Fresh m offset (o :: l)) :
    ∃ t l', Fresh m offset l' ∧ o :: l = m.prog offset t ++ l' := by
  obtain ⟨rem, h⟩ := h
  cases rem with
  | nil => cases h
  | cons t rem => exact ⟨t, rem.flatMap (m.prog offset), ⟨rem, rfl⟩, by rw [h, List.flatMap_cons]⟩

/-- The thread `k` goes on without writing a file: it keeps the writings it has to do. -/
theorem inv_quiet {m : Mode} (hm : m ≠ .shared) {offset size : Nat} {files : Nat → Option Nat} {s : Disk}
    (h : SerieInv m offset size files s) {k : Nat} {w w' : Writer} (hk : s.threads[k]? = some w) (g : Fmt)
    (hr : Ready m offset g w') (hw : ∀ t, Op.write t ∈ w'.todo ↔ Op.write t ∈ w.todo) :
    SerieInv m offset size files
      { s with fmts := Function.update s.fmts (m.fmt k) g, threads := s.threads.set k w' } := by
  have hkl : k < s.threads.length := (List.getElem?_eq_some_iff.1 hk).1
  refine ⟨h.noError, ?_, ?_, h.other, ?_⟩
  · intro j v hj
    simp only at hj
    rw [List.getElem?_set] at hj
    by_cases hjk : k = j
    · subst hjk
      rw [if_pos rfl, if_pos hkl] at hj
      cases hj
      simpa using hr
    · rw [if_neg hjk] at hj
      have := h.ready j v hj
      cases m with
      | shared => exact absurd rfl hm
      | critical => exact ready_critical this
      | firstprivate =>
        simp only [Mode.fmt, if_true] at this ⊢
        rw [Function.update_of_ne (Ne.symm hjk)]
        exact this
  · intro t ht
    rcases h.pending t ht with ⟨v, hv, hv'⟩ | h'
    · left
      obtain ⟨j, hj⟩ := List.getElem?_of_mem hv
      by_cases hjk : k = j
      · subst hjk
        rw [hk] at hj
        cases hj
        exact ⟨w', List.mem_of_getElem? (i := k) (by rw [List.getElem?_set, if_pos rfl, if_pos hkl]), (hw t).2 hv'⟩
      · exact ⟨v, List.mem_of_getElem? (i := j) (by rw [List.getElem?_set, if_neg hjk]; exact hj), hv'⟩
    · exact Or.inr h'
  · intro v hv t hvt
    rcases List.mem_or_eq_of_mem_set hv with h' | rfl
    · exact h.range v h' t hvt
    · exact h.range w (List.mem_of_getElem? hk) t ((hw t).1 hvt)

theorem inv_step {m : Mode} (hm : m ≠ .shared) {offset size : Nat} {files : Nat → Option Nat} {s : Disk}
    (h : SerieInv m offset size files s) (k : Nat) : SerieInv m offset size files (diskStep m s k) := by
  unfold diskStep
  rw [h.noError]
  cases hk : s.threads[k]? with
  | none => exact h
  | some w =>
    obtain ⟨nm, todo⟩ := w
    cases todo with
    | nil => exact h
    | cons o rest =>
      simp only
      rcases h.ready k _ hk with hf | ⟨hp, t, l, hf, he, h0, h1⟩ | ⟨hp, t, l, hf, he, h0, h1⟩ | ⟨t, l, hf, he, h0⟩
      · obtain ⟨t, l, hf', he⟩ := fresh_cons hf
        cases m with
        | shared => exact absurd rfl hm
        | critical =>
          simp only [Mode.prog, List.cons_append, List.nil_append, List.cons.injEq] at he
          obtain ⟨rfl, rfl⟩ := he
          simp only [doOp, Fmt.name, Fmt.feed, Fmt.clear, Fmt.str]
          exact inv_quiet hm h hk _ (Or.inr (Or.inr (Or.inr ⟨t, l, hf', rfl, rfl⟩))) (by simp)
        | firstprivate =>
          simp only [Mode.prog, List.cons_append, List.nil_append, List.cons.injEq] at he
          obtain ⟨rfl, rfl⟩ := he
          simp only [doOp]
          exact inv_quiet hm h hk _ (Or.inr (Or.inl ⟨rfl, t, l, hf', rfl, rfl, rfl⟩)) (by simp)
      · simp only [List.cons.injEq] at he
        obtain ⟨rfl, rfl⟩ := he
        have : (s.fmts (m.fmt k)).feed (t + offset) = .ok ⟨some (t + offset), 1, false⟩ := by
          simp [Fmt.feed, h0, h1]
        simp only [doOp, this]
        exact inv_quiet hm h hk _ (Or.inr (Or.inr (Or.inl ⟨hp, t, l, hf, rfl, rfl, rfl⟩))) (by simp)
      · simp only [List.cons.injEq] at he
        obtain ⟨rfl, rfl⟩ := he
        have : (s.fmts (m.fmt k)).str = .ok (some (t + offset), { s.fmts (m.fmt k) with dumped := true }) := by
          simp [Fmt.str, h0, h1]
        simp only [doOp, this]
        exact inv_quiet hm h hk _ (Or.inr (Or.inr (Or.inr ⟨t, l, hf, rfl, rfl⟩))) (by simp)
      · simp only [List.cons.injEq] at he h0
        obtain ⟨rfl, rfl⟩ := he
        subst h0
        have hkl : k < s.threads.length := (List.getElem?_eq_some_iff.1 hk).1
        have ht : t < size := h.range _ (List.mem_of_getElem? hk) t (by simp)
        simp only [doOp]
        refine ⟨h.noError, ?_, ?_, ?_, ?_⟩
        · intro j v hj
          simp only at hj
          rw [List.getElem?_set] at hj
          by_cases hjk : k = j
          · subst hjk
            rw [if_pos rfl, if_pos hkl] at hj
            cases hj
            exact Or.inl hf
          · rw [if_neg hjk] at hj
            exact h.ready j v hj
        · intro u hu
          by_cases hut : u = t
          · subst hut
            right
            simp
          · rcases h.pending u hu with ⟨v, hv, hv'⟩ | h'
            · left
              obtain ⟨j, hj⟩ := List.getElem?_of_mem hv
              by_cases hjk : k = j
              · subst hjk
                rw [hk] at hj
                cases hj
                refine ⟨_, List.mem_of_getElem? (i := k) (by rw [List.getElem?_set, if_pos rfl, if_pos hkl]), ?_⟩
                simpa [hut] using hv'
              · exact ⟨v, List.mem_of_getElem? (i := j) (by rw [List.getElem?_set, if_neg hjk]; exact hj), hv'⟩
            · right
              simp only
              rw [Function.update_of_ne (by omega)]
              exact h'
        · intro n hn
          simp only
          rw [Function.update_of_ne (by omega)]
          exact h.other n hn
        · intro v hv u hvu
          rcases List.mem_or_eq_of_mem_set hv with h' | rfl
          · exact h.range v h' u hvu
          · exact h.range _ (List.mem_of_getElem? hk) u (by simp [hvu])

theorem mem_prog (m : Mode) (offset t u : Nat) : Op.write u ∈ m.prog offset t ↔ u = t := by
  cases m <;> simp [Mode.prog]

theorem inv_start (m : Mode) (offset size n : Nat) (assign : Nat → Nat) (f : Fmt) (files : Nat → Option Nat)
    (ha : ∀ t < size, assign t < n) : SerieInv m offset size files (diskStart m offset size n assign f files) := by
  refine ⟨rfl, ?_, ?_, fun _ _ => rfl, ?_⟩
  · intro k w hk
    left
    simp only [diskStart, List.getElem?_map, Option.map_eq_some_iff] at hk
    obtain ⟨j, -, rfl⟩ := hk
    exact ⟨_, rfl⟩
  · intro t ht
    left
    refine ⟨_, List.mem_map.2 ⟨assign t, List.mem_range.2 (ha t ht), rfl⟩, ?_⟩
    rw [List.mem_flatMap]
    exact ⟨t, by simp [ht], (mem_prog _ _ _ _).2 rfl⟩
  · intro w hw t ht
    obtain ⟨k, -, rfl⟩ := List.mem_map.1 hw
    rw [List.mem_flatMap] at ht
    obtain ⟨u, hu, ht⟩ := ht
    rw [(mem_prog _ _ _ _).1 ht]
    simp at hu
    exact hu.1

/-- **C137** (protected): with the names taken in a critical section, or with a copy of the series in each thread, the
loop throws nothing, the file of each time step holds the results of this step and the other files are as they were,
whatever the number of threads, the distribution of the steps, the interleaving and what the series was used for
before. -/
theorem C137_protected {m : Mode} (hm : m ≠ .shared) (offset size : Nat) (f : Fmt) (files files' : Nat → Option Nat)
    (err : Option FmtError) (h : SerieEnds m offset size f files files' err) :
    err = none ∧ ∀ n, files' n = if offset ≤ n ∧ n < offset + size then some (n - offset) else files n := by
  obtain ⟨n, assign, sched, ha, hover, rfl, rfl⟩ := h
  have hI : SerieInv m offset size files (diskRun m sched (diskStart m offset size n assign f files)) := by
    have key : ∀ (sched : List Nat) (s : Disk), SerieInv m offset size files s →
        SerieInv m offset size files (diskRun m sched s) := by
      intro sched
      induction sched with
      | nil => intro s hs; exact hs
      | cons k sched ih => intro s hs; exact ih _ (inv_step hm hs k)
    exact key _ _ (inv_start m offset size n assign f files ha)
  refine ⟨hI.noError, ?_⟩
  intro i
  split
  · rename_i hi
    rcases hI.pending (i - offset) (by omega) with ⟨w, hw, hw'⟩ | h'
    · rcases hover with h0 | h0
      · exact absurd hI.noError h0
      · rw [h0 w hw] at hw'
        cases hw'
    · rw [Nat.sub_add_cancel hi.1] at h'
      exact h'
  · rename_i hi
    exact hI.other i hi

/-- The beginning of the loop over two time steps on two threads. -/
theorem start_two (offset : Nat) (f : Fmt) (files : Nat → Option Nat) :
    diskStart .shared offset 2 2 id f files = ⟨fun _ => f, files,
      [⟨none, [.clear, .feed (0 + offset), .str, .write 0]⟩, ⟨none, [.clear, .feed (1 + offset), .str, .write 1]⟩],
      none⟩ := by
  simp [diskStart, Mode.prog, List.range_succ]

/-- **C137** (shared, counterexample): without protection, two time steps on two threads can write both their results in
the file of the second; the file of the first is then left as it was before the program. -/
theorem C137_wrong_file_counterexample (offset : Nat) (f : Fmt) (files : Nat → Option Nat) :
    ∃ files', SerieEnds .shared offset 2 f files files' none ∧ files' offset = files offset ∧
      files' (1 + offset) = some 0 := by
  refine ⟨Function.update (Function.update files (1 + offset) (some 1)) (1 + offset) (some 0),
    ⟨2, id, [0, 0, 1, 1, 0, 1, 1, 0], fun t ht => ht, ?_⟩, ?_, ?_⟩
  · rw [start_two]
    simp [diskRun, diskStep, doOp, Mode.fmt, Fmt.clear, Fmt.feed, Fmt.str, Disk.over]
  · rw [Function.update_of_ne (by omega), Function.update_of_ne (by omega)]
  · simp

/-- **C137** (shared, counterexample): without protection the program can stop on an exception of the format, for want of
an argument or for an argument too many. -/
theorem C137_exception_counterexample (offset : Nat) (f : Fmt) (files : Nat → Option Nat) :
    SerieEnds .shared offset 2 f files files (some .tooFew) ∧ SerieEnds .shared offset 2 f files files (some .tooMany) := by
  refine ⟨⟨2, id, [0, 0, 1, 0], fun t ht => ht, ?_⟩, ⟨2, id, [0, 1, 0, 1], fun t ht => ht, ?_⟩⟩
  · rw [start_two]
    simp [diskRun, diskStep, doOp, Mode.fmt, Fmt.clear, Fmt.feed, Fmt.str, Disk.over]
  · rw [start_two]
    simp [diskRun, diskStep, doOp, Mode.fmt, Fmt.clear, Fmt.feed, Fmt.str, Disk.over]

/-- The hypothesis of `C137_protected`: three steps from the number 5 on two threads, with and without a copy of the
series. -/
example : ∃ files', SerieEnds .firstprivate 5 3 ⟨some 7, 1, true⟩ (fun _ => none) files' none ∧ files' 6 = some 1 := by
  refine ⟨_, ⟨2, fun t => t % 2, [0, 1, 0, 1, 0, 1, 0, 1, 0, 0, 0, 0], fun t ht => Nat.mod_lt _ (by omega), ?_, rfl, ?_⟩, ?_⟩
  · simp [diskStart, Mode.prog, List.range_succ, diskRun, diskStep, doOp, Mode.fmt, Fmt.clear, Fmt.feed, Fmt.str, Disk.over]
  · simp [diskStart, Mode.prog, List.range_succ, diskRun, diskStep, doOp, Mode.fmt, Fmt.clear, Fmt.feed, Fmt.str]
  · simp [diskStart, Mode.prog, List.range_succ, diskRun, diskStep, doOp, Mode.fmt, Fmt.clear, Fmt.feed, Fmt.str]

example : ∃ files', SerieEnds .critical 5 3 ⟨some 7, 1, true⟩ (fun _ => none) files' none ∧ files' 6 = some 1 := by
  refine ⟨_, ⟨2, fun t => t % 2, [0, 1, 1, 0, 0, 0], fun t ht => Nat.mod_lt _ (by omega), ?_, rfl, ?_⟩, ?_⟩
  · simp [diskStart, Mode.prog, List.range_succ, diskRun, diskStep, doOp, Mode.fmt, Fmt.clear, Fmt.feed, Fmt.str, Fmt.name, bind, Except.bind, Disk.over]
  · simp [diskStart, Mode.prog, List.range_succ, diskRun, diskStep, doOp, Mode.fmt, Fmt.clear, Fmt.feed, Fmt.str, Fmt.name, bind, Except.bind]
  · simp [diskStart, Mode.prog, List.range_succ, diskRun, diskStep, doOp, Mode.fmt, Fmt.clear, Fmt.feed, Fmt.str, Fmt.name, bind, Except.bind]

end Parallel

end Colloids
