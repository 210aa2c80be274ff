import Verif.Parallel.PrivateModel
import Verif.Parallel.Incr
import Verif.CommonLemmas
import Verif.Index.Lemmas

/-! # Parallel loops of which every iteration has its own cells do not depend on the threads -/

namespace Colloids

namespace Parallel

section

variable {κ L V : Type} [DecidableEq κ]

/-- One thread can run the whole loop. -/
theorem ends_exists (r : L) (iters : List (List (Instr κ L V))) (mem : κ → V) :
    Ends r iters mem (execAll iters.flatten (mem, r)).1 := by
  refine ⟨1, fun _ => 0, List.replicate iters.flatten.length 0, fun _ _ => Nat.one_pos, ?_⟩
  have hst : start 1 (fun _ => 0) r iters mem = ⟨mem, [⟨r, iters.flatten⟩]⟩ := by
    simp [start, share_length_all]
  have := run_alone iters.flatten [] 0 r (start 1 (fun _ => 0) r iters mem) (by rw [hst]; simp)
  rw [this, hst]
  exact ⟨by simp [Done], rfl⟩

/-- **C136**: a parallel loop of which the iterations use disjoint cells and do not rely on what a previous iteration
left in the private variables has a single possible result, that of the sequential loop. -/
theorem C136_deterministic (r : L) (iters : List (List (Instr κ L V))) (own : Nat → κ → Prop)
    (hdisj : ∀ p q c, own p c → own q c → p = q)
    (hcell : ∀ p l, iters[p]? = some l → ∀ i ∈ l, own p i.cell)
    (hreg : ∀ p l, iters[p]? = some l → ∀ m r' c, own p c → (execAll l (m, r')).1 c = (execAll l (m, r)).1 c)
    (mem mem' : κ → V) : Ends r iters mem mem' ↔ mem' = (execAll iters.flatten (mem, r)).1 := by
  constructor
  · intro he
    obtain ⟨h1, h2⟩ := ends_private r iters own hdisj hcell hreg mem mem' he
    obtain ⟨h3, h4⟩ := ends_private r iters own hdisj hcell hreg mem _ (ends_exists r iters mem)
    funext c
    by_cases h : ∃ p, p < iters.length ∧ own p c
    · obtain ⟨p, hp, hc⟩ := h
      have := List.getElem?_eq_getElem hp
      rw [h1 p _ this c hc, h3 p _ this c hc]
    · have h' : ∀ p < iters.length, ¬ own p c := fun p hp hc => h ⟨p, hp, hc⟩
      rw [h2 c h', h4 c h']
  · rintro rfl
    exact ends_exists r iters mem

/-- The same for the iterations `body 0`, ..., `body (n-1)`: existence and what the cells hold. -/
theorem ends_body (r : L) (n : Nat) (body : Nat → List (Instr κ L V)) (own : Nat → κ → Prop)
    (hdisj : ∀ p q c, own p c → own q c → p = q) (hcell : ∀ p < n, ∀ i ∈ body p, own p i.cell)
    (hreg : ∀ p < n, ∀ m r' c, own p c → (execAll (body p) (m, r')).1 c = (execAll (body p) (m, r)).1 c)
    (mem : κ → V) (out : κ → V) (hout : ∀ p < n, ∀ c, own p c → out c = (execAll (body p) (mem, r)).1 c)
    (hrest : ∀ c, (∀ p < n, ¬ own p c) → out c = mem c) (mem' : κ → V) :
    Ends r ((List.range n).map body) mem mem' ↔ mem' = out := by
  have hget : ∀ p l, ((List.range n).map body)[p]? = some l → p < n ∧ l = body p := by
    intro p l h
    rw [List.getElem?_map] at h
    by_cases hp : p < n
    · rw [List.getElem?_range hp] at h
      exact ⟨hp, (Option.some.inj h).symm⟩
    · rw [List.getElem?_eq_none (by simpa using hp)] at h
      cases h
  have hc : ∀ p l, ((List.range n).map body)[p]? = some l → ∀ i ∈ l, own p i.cell := by
    intro p l h
    obtain ⟨hp, rfl⟩ := hget p l h
    exact hcell p hp
  have hr : ∀ p l, ((List.range n).map body)[p]? = some l → ∀ m r' c, own p c →
      (execAll l (m, r')).1 c = (execAll l (m, r)).1 c := by
    intro p l h
    obtain ⟨hp, rfl⟩ := hget p l h
    exact hreg p hp
  have hu : ∀ m', Ends r ((List.range n).map body) mem m' → m' = out := by
    intro m' he
    obtain ⟨h1, h2⟩ := ends_private r _ own hdisj hc hr mem m' he
    funext c
    by_cases h : ∃ p, p < n ∧ own p c
    · obtain ⟨p, hp, hcp⟩ := h
      rw [hout p hp c hcp, h1 p (body p) (by rw [List.getElem?_map, List.getElem?_range hp]; rfl) c hcp]
    · have h' : ∀ p < n, ¬ own p c := fun p hp hc => h ⟨p, hp, hc⟩
      rw [hrest c h', h2 c (by simpa using h')]
  constructor
  · exact hu mem'
  · rintro rfl
    have := hu _ (ends_exists r ((List.range n).map body) mem)
    rw [← this]
    exact ends_exists _ _ _

end

/-- **C136** (`x[p] = f(p)`): the vector ends as the sequential loop leaves it. -/
theorem C136_table {V : Type} (n : Nat) (f : Nat → V) (x x' : Nat → V) :
    TableEnds n f x x' ↔ x' = fun p => if p < n then f p else x p := by
  apply ends_body () n _ (fun p c => p = c)
  · rintro p q c rfl rfl; rfl
  · intro p _ i hi
    rw [List.mem_singleton.1 hi]
    rfl
  · rintro p _ m r' c rfl
    rfl
  · rintro p hp c rfl
    simp [execAll, exec, hp]
  · intro c h
    have : ¬ c < n := fun hc => h c hc rfl
    simp [this]

/-- **C136** (`Particles::operator+=`): the translation does not depend on the threads. -/
theorem C136_shift {G : Type} [Field G] [LinearOrder G] (ps ps' : Particles G) (v : Coord G) :
    ShiftEnds ps v ps' ↔ ps' = ps.translate v := by
  have key := ends_body (0 : G) ps.pos.length
    (fun p => incrs [((p, (0 : Fin 3)), v 0), ((p, 1), v 1), ((p, 2), v 2)]) (fun p c => p = c.1)
    (by rintro p q c rfl rfl; rfl)
    (by
      intro p _ i hi
      simp only [incrs, incr, List.flatMap_cons, List.flatMap_nil, List.append_nil, List.cons_append, List.nil_append,
        List.mem_cons, List.not_mem_nil, or_false] at hi
      rcases hi with rfl | rfl | rfl | rfl | rfl | rfl <;> rfl)
    (by
      intro p _ m r' c _
      rw [execAll_incrs, execAll_incrs])
    (fun c => (ps.pos[c.1]?.getD 0) c.2)
    (fun c => if c.1 < ps.pos.length then (ps.pos[c.1]?.getD 0) c.2 + v c.2 else (ps.pos[c.1]?.getD 0) c.2)
    (by
      rintro p hp ⟨q, a⟩ h
      cases h
      rw [execAll_incrs]
      simp only [if_pos hp]
      congr 1
      match a with
      | 0 => simp
      | 1 => simp
      | 2 => simp)
    (by
      intro c h
      have : ¬ c.1 < ps.pos.length := fun hc => h c.1 hc rfl
      simp [this])
  have hpos : (List.range ps.pos.length).map (fun p (a : Fin 3) =>
      if p < ps.pos.length then (ps.pos[p]?.getD 0) a + v a else (ps.pos[p]?.getD 0) a) = ps.pos.map (fun x => x + v) := by
    apply List.ext_getElem
    · simp
    · intro i h1 h2
      have hi : i < ps.pos.length := by simpa using h2
      funext a
      simp [hi]
  unfold ShiftEnds Particles.translate
  constructor
  · rintro ⟨mem, he, rfl⟩
    rw [(key mem).1 he]
    simp only [hpos]
  · rintro rfl
    exact ⟨_, (key _).2 rfl, by simp only [hpos]⟩

/-- The owner of the elements `p` of the rows. -/
def ownField (p : Nat) (c : FieldCell) : Prop := c = .val p ∨ c = .div p

theorem ownField_disj (p q : Nat) (c : FieldCell) (hp : ownField p c) (hq : ownField q c) : p = q := by
  rcases hp with rfl | rfl <;> rcases hq with h | h <;> cases h <;> rfl

theorem mapM_congr_mem {α β : Type} (f g : α → R β) : ∀ (l : List α), (∀ a ∈ l, f a = g a) → l.mapM f = l.mapM g
  | [], _ => rfl
  | a :: l, h => by
    rw [List.mapM_cons, List.mapM_cons, h a (by simp), mapM_congr_mem f g l (fun b hb => h b (by simp [hb]))]

/-- A loop on indices of which the result is made of what another computes. -/
theorem mapM_map_ok {β γ : Type} (f : Nat → R β) (g : Nat → β → γ) (d : β) (n : Nat) (out : List γ) :
    (List.range n).mapM (fun p => (f p).map (g p)) = .ok out ↔
      ∃ l, (List.range n).mapM f = .ok l ∧ out = (List.range n).map (fun p => g p (l[p]?.getD d)) := by
  have hone : ∀ {δ : Type} (h : Nat → R δ) (a : Nat), [a].mapM h = (h a).map (fun x => [x]) := by
    intro δ h a
    rw [List.mapM_cons, List.mapM_nil]
    cases h a <;> rfl
  have key : ∀ n, (List.range n).mapM (fun p => (f p).map (g p))
      = ((List.range n).mapM f).map (fun l => (List.range n).map (fun p => g p (l[p]?.getD d))) ∧
      ∀ l, (List.range n).mapM f = .ok l → l.length = n := by
    intro n
    induction n with
    | zero =>
      refine ⟨rfl, ?_⟩
      intro l hl
      cases hl
      rfl
    | succ n ih =>
      obtain ⟨ih1, ih2⟩ := ih
      rw [List.range_succ, List.mapM_append, List.mapM_append, ih1, hone, hone]
      cases h : (List.range n).mapM f with
      | error e =>
        refine ⟨rfl, ?_⟩
        intro l hl
        cases hl
      | ok l =>
        have hlen := ih2 l h
        cases hf : f n with
        | error e =>
          refine ⟨rfl, ?_⟩
          intro l hl
          cases hl
        | ok y =>
          constructor
          · show Except.ok _ = Except.ok _
            congr 1
            simp only
            rw [List.map_append]
            congr 1
            · apply List.map_congr_left
              intro p hp
              rw [List.mem_range] at hp
              rw [List.getElem?_append_left (by omega)]
            · simp [hlen]
          · intro l' hl'
            cases hl'
            simp [hlen]
  rw [(key n).1]
  cases (List.range n).mapM f with
  | error e =>
    constructor
    · intro h; cases h
    · rintro ⟨l, h, -⟩; cases h
  | ok l =>
    constructor
    · intro h
      cases h
      exact ⟨l, rfl, rfl⟩
    · rintro ⟨l', h, rfl⟩
      cases h
      rfl

section

variable {V : Type} [Add V] [Zero V]

theorem binOne_eq (ops : FieldOps V) (ti : TrajIndex) (now : Nat) (frame : List V) (inv : List Nat) (p : Nat)
    (v : V) (n : Nat) :
    (do let trn ← getR inv p; DynField.binOne ops ti now frame trn v n)
      = (binTerm ops ti now frame inv p).map (fun o => match o with | none => (v, n) | some x => (v + x, n + 1)) := by
  unfold binTerm DynField.binOne
  cases getR inv p with
  | error e => rfl
  | ok trn =>
    simp only [ok_bind]
    cases getR ti.trajs trn with
    | error e => rfl
    | ok tr =>
      simp only [ok_bind]
      split
      · cases tr.at_ now with
        | error e => rfl
        | ok i =>
          simp only [ok_bind]
          cases getR frame i with
          | error e => rfl
          | ok x =>
            simp only [ok_bind]
            split <;> rfl
      · rfl

/-- **C136** (averages in time): the loop of `push_back` that adds a frame to the rows of its window does not depend on
the threads. -/
theorem C136_bin (ops : FieldOps V) (ti : TrajIndex) (now : Nat) (frame : List V) (inv : List Nat) (row : List V)
    (div : List Nat) (hr : row.length = inv.length) (hd : div.length = inv.length) (rd : List (V × Nat)) :
    BinEnds ops ti now frame inv row div rd ↔ DynField.binRow ops ti now frame inv row div = .ok rd := by
  have key : ∀ terms : List (Option V), ∀ mem, Ends ((0 : V), (0 : Nat)) ((List.range inv.length).map
      (fun p => binBody p (terms[p]?.getD none))) (rowMem row div) mem ↔
      mem = fun c => match c with
        | .val p => match (if p < inv.length then terms[p]?.getD none else none) with
          | none => (row[p]?.getD 0, 0)
          | some x => (row[p]?.getD 0 + x, 0)
        | .div p => match (if p < inv.length then terms[p]?.getD none else none) with
          | none => (0, div[p]?.getD 0)
          | some _ => (0, div[p]?.getD 0 + 1) := by
    intro terms mem
    apply ends_body _ _ _ ownField ownField_disj
    · intro p _ i hi
      cases ht : terms[p]?.getD none with
      | none => rw [ht] at hi; cases hi
      | some x =>
        rw [ht] at hi
        simp only [binBody, List.mem_cons, List.not_mem_nil, or_false] at hi
        rcases hi with rfl | rfl | rfl | rfl <;> simp [Instr.cell, ownField]
    · intro p _ m r' c _
      cases terms[p]?.getD none <;> rfl
    · intro p hp c hc
      rcases hc with rfl | rfl
      · simp only [if_pos hp]
        cases terms[p]?.getD none with
        | none => rfl
        | some x => simp [binBody, execAll, exec, rowMem]
      · simp only [if_pos hp]
        cases terms[p]?.getD none with
        | none => rfl
        | some x => simp [binBody, execAll, exec, rowMem]
    · intro c hc
      cases c with
      | val p =>
        have : ¬ p < inv.length := fun hp => hc p hp (Or.inl rfl)
        simp [this, rowMem]
      | div p =>
        have : ¬ p < inv.length := fun hp => hc p hp (Or.inr rfl)
        simp [this, rowMem]
  have hstep : ∀ p ∈ List.range inv.length, (do
      let trn ← getR inv p
      let v ← getR row p
      let n ← getR div p
      DynField.binOne ops ti now frame trn v n)
      = (binTerm ops ti now frame inv p).map (fun o => match o with
        | none => (row[p]?.getD 0, div[p]?.getD 0)
        | some x => (row[p]?.getD 0 + x, div[p]?.getD 0 + 1)) := by
    intro p hp
    rw [List.mem_range] at hp
    rw [← binOne_eq]
    have h1 : getR row p = .ok (row[p]?.getD 0) := by
      rw [getR_ok, List.getElem?_eq_getElem (by omega)]; simp
    have h2 : getR div p = .ok (div[p]?.getD 0) := by
      rw [getR_ok, List.getElem?_eq_getElem (by omega)]; simp
    simp only [h1, h2, ok_bind]
  unfold DynField.binRow BinEnds
  have hmap : (List.range inv.length).mapM (fun p => do
      let trn ← getR inv p
      let v ← getR row p
      let n ← getR div p
      DynField.binOne ops ti now frame trn v n)
      = (List.range inv.length).mapM (fun p => (binTerm ops ti now frame inv p).map (fun o => match o with
        | none => (row[p]?.getD 0, div[p]?.getD 0)
        | some x => (row[p]?.getD 0 + x, div[p]?.getD 0 + 1))) := by
    apply mapM_congr_mem
    exact hstep
  rw [hmap, mapM_map_ok _ _ none]
  constructor
  · rintro ⟨terms, mem, h1, h2, rfl⟩
    refine ⟨terms, h1, ?_⟩
    rw [(key terms mem).1 h2]
    apply List.map_congr_left
    intro p hp
    rw [List.mem_range] at hp
    simp only [if_pos hp]
    cases terms[p]?.getD none <;> rfl
  · rintro ⟨terms, h1, rfl⟩
    refine ⟨terms, _, h1, (key terms _).2 rfl, ?_⟩
    apply List.map_congr_left
    intro p hp
    rw [List.mem_range] at hp
    simp only [if_pos hp]
    cases terms[p]?.getD none <;> rfl

/-- **C136** (averages in time): the loop of `push_back` that divides a row does not depend on the threads. -/
theorem C136_divide (ops : FieldOps V) (row : List V) (div : List Nat) (row' : List V) :
    DivideEnds ops row div row' ↔
      row' = (List.range row.length).map (fun p => ops.div (row[p]?.getD 0) (max 1 (div[p]?.getD 0))) := by
  have key := ends_body ((0 : V), (0 : Nat)) row.length (fun p =>
      [Instr.load (FieldCell.div p) (fun m r => (r.1, m.2)), .load (.val p) (fun m r => (m.1, r.2)),
       .store (.val p) (fun r => (ops.div r.1 (max 1 r.2), r.2))]) ownField ownField_disj
    (by
      intro p _ i hi
      simp only [List.mem_cons, List.not_mem_nil, or_false] at hi
      rcases hi with rfl | rfl | rfl <;> simp [Instr.cell, ownField])
    (by intro p _ m r' c _; rfl) (rowMem row div)
    (fun c => match c with
      | .val p => if p < row.length then (ops.div (row[p]?.getD 0) (max 1 (div[p]?.getD 0)), div[p]?.getD 0)
          else (row[p]?.getD 0, 0)
      | .div p => (0, div[p]?.getD 0))
    (by
      intro p hp c hc
      rcases hc with rfl | rfl
      · simp [execAll, exec, rowMem, hp]
      · simp [execAll, exec, rowMem])
    (by
      intro c hc
      cases c with
      | val p =>
        have : ¬ p < row.length := fun hp => hc p hp (Or.inl rfl)
        simp [this, rowMem]
      | div p => rfl)
  have hrow : (List.range row.length).map (fun p => (if p < row.length then
      (ops.div (row[p]?.getD 0) (max 1 (div[p]?.getD 0)), div[p]?.getD 0) else (row[p]?.getD 0, 0)).1)
      = (List.range row.length).map (fun p => ops.div (row[p]?.getD 0) (max 1 (div[p]?.getD 0))) := by
    apply List.map_congr_left
    intro p hp
    rw [List.mem_range] at hp
    rw [if_pos hp]
  unfold DivideEnds
  constructor
  · rintro ⟨mem, he, rfl⟩
    rw [(key mem).1 he]
    exact hrow
  · rintro rfl
    exact ⟨_, (key _).2 rfl, hrow.symm⟩

end

/-- **C136** (normalisation): the second loop of `get_MSD_NGP` does not depend on the threads. -/
theorem C136_normalise {G : Type} [Field G] [LinearOrder G] (radius : G) (k n : Nat) (msd ngp nb : Nat → G)
    (mem : FilmCell → Option G) :
    Ends (0, 0, 0) ((List.range n).map (normBody radius k)) (fun c => match c with
      | .msd t => some (msd t)
      | .ngp t => some (ngp t)
      | .nb t => some (nb t)) mem ↔
    mem = fun c => match c with
      | .msd t => if t < n then Dyn.quot (msd t) (nb t * (2 * radius) ^ 2 * k) else some (msd t)
      | .ngp t => if t < n then (Dyn.quot (nb t * k) (3 * msd t * msd t)).map (ngp t * ·) else some (ngp t)
      | .nb t => some (nb t) := by
  apply ends_body _ _ _ (fun t c => c = .msd t ∨ c = .ngp t ∨ c = .nb t)
  · intro p q c hp hq
    rcases hp with rfl | rfl | rfl <;> rcases hq with h | h | h <;> cases h <;> rfl
  · intro p _ i hi
    simp only [normBody, List.mem_cons, List.not_mem_nil, or_false] at hi
    rcases hi with rfl | rfl | rfl | rfl | rfl <;> simp [Instr.cell]
  · intro p _ m r' c _
    rfl
  · intro p hp c hc
    rcases hc with rfl | rfl | rfl <;> simp [normBody, execAll, exec, hp]
  · intro c hc
    cases c with
    | msd t =>
      have : ¬ t < n := fun ht => hc t ht (Or.inl rfl)
      simp [this]
    | ngp t =>
      have : ¬ t < n := fun ht => hc t ht (Or.inr (Or.inl rfl))
      simp [this]
    | nb t => rfl

/-- The hypotheses of `C136_deterministic`: two iterations on two cells, whatever the private variable holds. -/
example (mem mem' : Nat → Int) :
    Ends (L := Int) 0 [[.load 0 (fun v _ => v), .store 0 (fun r => r + 1)], [.load 1 (fun v _ => v), .store 1 (fun r => 2 * r)]]
      mem mem' ↔ mem' = Function.update (Function.update mem 0 (mem 0 + 1)) 1 (2 * mem 1) := by
  rw [C136_deterministic (L := Int) 0 _ (fun p c => p = c)]
  · simp [execAll, exec]
  · rintro p q c rfl rfl; rfl
  · intro p l h i hi
    match p with
    | 0 => cases h; simp at hi; rcases hi with rfl | rfl <;> rfl
    | 1 => cases h; simp at hi; rcases hi with rfl | rfl <;> rfl
    | p + 2 => simp at h
  · intro p l h m r' c _
    match p with
    | 0 => cases h; rfl
    | 1 => cases h; rfl
    | p + 2 => simp at h

end Parallel

end Colloids
