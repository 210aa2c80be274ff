import Verif.Parallel.PushModel
import Verif.Parallel.Incr
import Mathlib.Data.List.Perm.Basic

/-! # C138: the centers found in a volume by several threads -/

namespace Colloids

namespace Parallel

variable {α β : Type}

/-- The pixels to push. -/
def Push.pix : Push α β → Option α
  | .pixel a => some a
  | .center _ => none

/-- The centers to push. -/
def Push.ctr : Push α β → Option β
  | .pixel _ => none
  | .center b => some b

theorem flatten_set_perm {γ : Type} (a : γ) (rest : List γ) : ∀ (l : List (List γ)) (k : Nat),
    l[k]? = some (a :: rest) → l.flatten.Perm (a :: (l.set k rest).flatten)
  | [], k, h => by simp at h
  | x :: l, 0, h => by
    simp only [List.getElem?_cons_zero, Option.some.injEq] at h
    subst h
    simp
  | x :: l, k + 1, h => by
    simp only [List.getElem?_cons_succ] at h
    have ih := flatten_set_perm a rest l k h
    simp only [List.set_cons_succ, List.flatten_cons]
    exact (ih.append_left x).trans List.perm_middle

theorem pushStep_perm (s : Lists α β) (k : Nat) :
    ((pushStep s k).pixels ++ (pushStep s k).threads.flatten.filterMap Push.pix).Perm
      (s.pixels ++ s.threads.flatten.filterMap Push.pix) ∧
    ((pushStep s k).centers ++ (pushStep s k).threads.flatten.filterMap Push.ctr).Perm
      (s.centers ++ s.threads.flatten.filterMap Push.ctr) := by
  unfold pushStep
  split
  · rename_i a rest h
    have hp := flatten_set_perm _ _ _ _ h
    refine ⟨?_, ?_⟩
    · have := (hp.filterMap Push.pix).append_left s.pixels
      simp only [List.filterMap_cons, Push.pix] at this
      simpa using this.symm
    · have := (hp.filterMap Push.ctr).append_left s.centers
      simp only [List.filterMap_cons, Push.ctr] at this
      exact this.symm
  · rename_i b rest h
    have hp := flatten_set_perm _ _ _ _ h
    refine ⟨?_, ?_⟩
    · have := (hp.filterMap Push.pix).append_left s.pixels
      simp only [List.filterMap_cons, Push.pix] at this
      exact this.symm
    · have := (hp.filterMap Push.ctr).append_left s.centers
      simp only [List.filterMap_cons, Push.ctr] at this
      simpa using this.symm
  · exact ⟨List.Perm.refl _, List.Perm.refl _⟩

theorem pushRun_perm (sched : List Nat) (s : Lists α β) :
    ((sched.foldl pushStep s).pixels ++ (sched.foldl pushStep s).threads.flatten.filterMap Push.pix).Perm
      (s.pixels ++ s.threads.flatten.filterMap Push.pix) ∧
    ((sched.foldl pushStep s).centers ++ (sched.foldl pushStep s).threads.flatten.filterMap Push.ctr).Perm
      (s.centers ++ s.threads.flatten.filterMap Push.ctr) := by
  induction sched generalizing s with
  | nil => exact ⟨List.Perm.refl _, List.Perm.refl _⟩
  | cons k sched ih =>
    have h1 := ih (pushStep s k)
    have h2 := pushStep_perm s k
    exact ⟨h1.1.trans h2.1, h1.2.trans h2.2⟩

theorem filterMap_pushes (l : List (α × β)) :
    (pushes l).filterMap Push.pix = l.map Prod.fst ∧ (pushes l).filterMap Push.ctr = l.map Prod.snd := by
  induction l with
  | nil => exact ⟨rfl, rfl⟩
  | cons x l ih =>
    have : pushes (x :: l) = .pixel x.1 :: .center x.2 :: pushes l := rfl
    rw [this]
    refine ⟨?_, ?_⟩
    · show x.1 :: (pushes l).filterMap Push.pix = _
      rw [ih.1]; rfl
    · show x.2 :: (pushes l).filterMap Push.ctr = _
      rw [ih.2]; rfl

/-- The shares of the threads hold each iteration once. -/
theorem share_perm {γ : Type} (assign : Nat → Nat) (n : Nat) (iters : List γ) (ha : ∀ p < iters.length, assign p < n) :
    ((List.range n).map (fun k => share assign k iters)).flatten.Perm iters := by
  have key : ∀ (z : List (γ × Nat)) (n : Nat),
      ((List.range n).map (fun k => (z.filter (fun x => decide (assign x.2 = k))).map Prod.fst)).flatten.Perm
        ((z.filter (fun x => decide (assign x.2 < n))).map Prod.fst) := by
    intro z n
    induction n with
    | zero => simp
    | succ n ih =>
      rw [List.range_succ, List.map_append, List.flatten_append]
      have h1 := List.filter_append_perm (fun x : γ × Nat => decide (assign x.2 < n))
        (z.filter (fun x => decide (assign x.2 < n + 1)))
      rw [List.filter_filter, List.filter_filter] at h1
      have e1 : z.filter (fun a => decide (assign a.2 < n) && decide (assign a.2 < n + 1))
          = z.filter (fun a => decide (assign a.2 < n)) := by
        apply List.filter_congr
        intro x _
        rw [Bool.eq_iff_iff]
        simp
        omega
      have e2 : z.filter (fun a => !decide (assign a.2 < n) && decide (assign a.2 < n + 1))
          = z.filter (fun a => decide (assign a.2 = n)) := by
        apply List.filter_congr
        intro x _
        rw [Bool.eq_iff_iff]
        simp
        omega
      rw [e1, e2] at h1
      refine List.Perm.trans ?_ (h1.map Prod.fst)
      rw [List.map_append]
      simpa using ih.append_right _
  refine (key iters.zipIdx n).trans ?_
  have : iters.zipIdx.filter (fun x => decide (assign x.2 < n)) = iters.zipIdx := by
    rw [List.filter_eq_self]
    rintro ⟨x, p⟩ hx
    have := (List.mem_zipIdx' hx).1
    simpa using ha p this
  rw [this, List.zipIdx_map_fst]

theorem pending_perm (assign : Nat → Nat) (n : Nat) (iters : List (List (α × β)))
    (ha : ∀ p < iters.length, assign p < n) :
    (((List.range n).map (fun k => pushes (share assign k iters).flatten)).flatten.filterMap Push.pix).Perm
      (iters.flatten.map Prod.fst) ∧
    (((List.range n).map (fun k => pushes (share assign k iters).flatten)).flatten.filterMap Push.ctr).Perm
      (iters.flatten.map Prod.snd) := by
  have hp : ((List.range n).map (fun k => pushes (share assign k iters).flatten)).flatten
      = pushes ((List.range n).map (fun k => share assign k iters)).flatten.flatten := by
    induction List.range n with
    | nil => rfl
    | cons a l ih =>
      rw [List.map_cons, List.flatten_cons, ih, List.map_cons, List.flatten_cons, List.flatten_append]
      unfold pushes
      rw [List.flatMap_append]
  rw [hp, (filterMap_pushes _).1, (filterMap_pushes _).2]
  have := (share_perm assign n iters ha).flatten
  exact ⟨this.map _, this.map _⟩

/-- **C138**: whatever the number of threads, the distribution of the iterations and the interleaving, the list of the
centers holds every center that the iterations find, as many times as they find it, and so does the list of their
pixels. -/
theorem C138_perm (iters : List (List (α × β))) (pixels : List α) (centers : List β)
    (h : PushEnds iters pixels centers) :
    pixels.Perm (iters.flatten.map Prod.fst) ∧ centers.Perm (iters.flatten.map Prod.snd) := by
  obtain ⟨n, assign, sched, ha, h⟩ := h
  have hp := pushRun_perm sched
    (⟨[], [], (List.range n).map (fun k => pushes (share assign k iters).flatten)⟩ : Lists α β)
  rw [h] at hp
  have hf : (List.replicate n ([] : List (Push α β))).flatten = [] := by simp
  simp only [hf, List.filterMap_nil, List.append_nil, List.nil_append] at hp
  have hq := pending_perm assign n iters ha
  exact ⟨hp.1.trans hq.1, hp.2.trans hq.2⟩

/-- **C138** (one thread): the lists in the order of the loop are a possible result. -/
theorem C138_sequential (iters : List (List (α × β))) :
    PushEnds iters (iters.flatten.map Prod.fst) (iters.flatten.map Prod.snd) := by
  refine ⟨1, fun _ => 0, List.replicate (pushes iters.flatten).length 0, fun _ _ => Nat.one_pos, ?_⟩
  have hst : (List.range 1).map (fun k => pushes (share (fun _ => 0) k iters).flatten) = [pushes iters.flatten] := by
    simp [share_length_all]
  rw [hst]
  have key : ∀ (l : List (α × β)) (A : List α) (B : List β),
      (List.replicate (pushes l).length 0).foldl pushStep ⟨A, B, [pushes l]⟩
        = ⟨A ++ l.map Prod.fst, B ++ l.map Prod.snd, [[]]⟩ := by
    intro l
    induction l with
    | nil => intro A B; simp [pushes]
    | cons x l ih =>
      intro A B
      have : pushes (x :: l) = .pixel x.1 :: .center x.2 :: pushes l := rfl
      rw [this]
      simp only [List.length_cons, List.replicate_succ, List.foldl_cons]
      have h2 : pushStep (pushStep ⟨A, B, [Push.pixel x.1 :: .center x.2 :: pushes l]⟩ 0) 0
          = (⟨A ++ [x.1], B ++ [x.2], [pushes l]⟩ : Lists α β) := rfl
      rw [h2, ih]
      simp
  rw [key]
  simp

/-- **C138** (counterexample): the two lists need not be in the same order. Two iterations that find a center each can
leave the pixel of the first before that of the second, and the centers the other way round: the pixel given by
`get_center_pixel(n)` is then not that of the center `n`. -/
theorem C138_order_counterexample (x y : α × β) : PushEnds [[x], [y]] [x.1, y.1] [y.2, x.2] :=
  ⟨2, id, [0, 1, 1, 0], fun p hp => hp, rfl⟩

/-- The hypothesis of `C138_perm` with three iterations on two threads. -/
example : PushEnds [[(1, 'a')], [], [(2, 'b'), (3, 'c')]] [2, 1, 3] ['a', 'b', 'c'] :=
  ⟨2, fun p => p / 2, [1, 0, 0, 1, 1, 1], fun _ hp => by simp at hp; simp only; omega, rfl⟩

end Parallel

end Colloids
