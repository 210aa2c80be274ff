import Verif.CommonLemmas
import Verif.Lif.Spec
import Mathlib.Tactic.Ring

/-!
# Lemmas on streams of bytes
-/

namespace Colloids.Lif

theorem leBytes_length (k n : Nat) : (leBytes k n).length = k := by
  induction k generalizing n with
  | zero => rfl
  | succ k ih => simp [leBytes, ih]

theorem leNat_leBytes (k n : Nat) (h : n < 256 ^ k) : leNat (leBytes k n) = n := by
  induction k generalizing n with
  | zero => simp at h; simp [leBytes, leNat, h]
  | succ k ih =>
    simp only [leBytes, leNat]
    rw [ih]
    · simp
      omega
    · rw [pow_succ] at h
      omega

theorem wide_length (t : List (Byte × Byte)) : (wide t).length = 2 * t.length := by
  induction t with
  | nil => rfl
  | cons c t ih => simp [wide] at ih ⊢; omega

theorem everyOther_wide (t : List (Byte × Byte)) : everyOther (wide t) = t.map (·.1) := by
  induction t with
  | nil => rfl
  | cons c t ih => simpa [wide, everyOther] using ih

theorem readLE_append (pre x post : List Byte) (n : Nat) (hx : x.length = n) (pos : Nat)
    (hp : pos = pre.length) :
    readLE n (pre ++ x ++ post) pos = .ok (leNat x, pos + n) := by
  subst hp
  unfold readLE
  simp [List.append_assoc, hx]

theorem findTest_append (u post : List Byte) (h : (0x2a : Byte) ∉ u) :
    findTest (u ++ 0x2a :: post) = .ok (u.length + 1) := by
  induction u with
  | nil => simp [findTest]
  | cons b u ih =>
    simp only [List.mem_cons, not_or] at h
    have : ¬ b = 0x2a := fun e => h.1 e.symm
    simp only [List.cons_append, findTest, if_neg this, ih h.2, List.length_cons]
    rfl

theorem findTest_diverge (u : List Byte) (h : (0x2a : Byte) ∉ u) :
    findTest u = .error .diverge := by
  induction u with
  | nil => simp [findTest]
  | cons b u ih =>
    simp only [List.mem_cons, not_or] at h
    have : ¬ b = 0x2a := fun e => h.1 e.symm
    simp only [findTest, if_neg this, ih h.2]
    rfl

theorem drop_pre {α : Type} (pre post : List α) (pos : Nat) (hp : pos = pre.length) :
    (pre ++ post).drop pos = post := by
  subst hp; simp

theorem blockHead_ok (err : Fault) (pre nextSize post : List Byte) (pos : Nat)
    (hp : pos = pre.length) (hn : nextSize.length = 4) :
    blockHead err (pre ++ (headBytes nextSize ++ post)) pos = .ok (pos + 9) := by
  have e1 : pre ++ (headBytes nextSize ++ post)
      = pre ++ [0x70, 0, 0, 0] ++ (nextSize ++ 0x2a :: post) := by
    simp [headBytes]
  have e2 : pre ++ (headBytes nextSize ++ post)
      = (pre ++ [0x70, 0, 0, 0] ++ nextSize) ++ (0x2a :: post) := by
    simp [headBytes]
  unfold blockHead
  rw [e1, readLE_append pre [0x70, 0, 0, 0] _ 4 rfl pos hp, ok_bind]
  have : leNat [0x70, 0, 0, 0] = memBlockCode := by decide
  simp only [this, ne_eq, not_true, if_false]
  rw [← e1, e2, drop_pre _ _ (pos + 4 + 4) (by simp [hp, hn])]
  simp [getChar, isSpace, testCode, pure_eq_ok]

/-- Reading one block, whatever follows its description. -/
theorem blocks_step_cut (version : Int) (pre post : List Byte) (b : Block) (hb : b.WF version)
    (fuel : Nat) (hs : List Header) (pos : Nat) (hp : pos = pre.length) :
    blocks version (pre ++ (b.descrBytes version ++ post)) (fuel + 1) hs pos =
      (if b.data = [] then
        blocks version (pre ++ (b.descrBytes version ++ post)) fuel hs
          (pos + (b.descrBytes version).length)
      else match hs with
        | [] => .error .logicError
        | h :: hs => do
          let s ← Serie.mk' h (pre ++ (b.descrBytes version ++ post))
            (pos + (b.descrBytes version).length) b.data.length
          match jump (pos + (b.descrBytes version).length) b.data.length with
          | none => .error .ub
          | some q' => do
            let rest ← blocks version (pre ++ (b.descrBytes version ++ post)) fuel hs q'
            pure (s :: rest)) := by
  generalize hk : (if (2 : Int) ≤ version then 8 else 4 : Nat) = k
  have hd : b.data.length < 256 ^ k := by
    have := hb.data
    subst hk
    split at this <;> rename_i hv
    · rw [if_pos hv]
      omega
    · rw [if_neg hv]
      omega
  have hl : (b.descrBytes version).length = 9 + k + b.unused.length + 1 + 4 + 2 * b.descr.length := by
    simp [Block.descrBytes, headBytes, hb.nextSize, leBytes_length, wide_length, hk]
    omega
  have f1 : pre ++ (b.descrBytes version ++ post)
      = pre ++ (headBytes b.nextSize ++ (leBytes k b.data.length ++ (b.unused ++
        (0x2a :: (leBytes 4 b.descr.length ++ (wide b.descr ++ post)))))) := by
    simp [Block.descrBytes, hk]
  have f2 : pre ++ (b.descrBytes version ++ post)
      = (pre ++ headBytes b.nextSize) ++ leBytes k b.data.length ++ (b.unused ++
        (0x2a :: (leBytes 4 b.descr.length ++ (wide b.descr ++ post)))) := by
    simp [Block.descrBytes, hk]
  have f3 : pre ++ (b.descrBytes version ++ post)
      = ((pre ++ headBytes b.nextSize) ++ leBytes k b.data.length) ++ (b.unused ++
        (0x2a :: (leBytes 4 b.descr.length ++ (wide b.descr ++ post)))) := by
    simp [Block.descrBytes, hk]
  have f4 : pre ++ (b.descrBytes version ++ post)
      = ((pre ++ headBytes b.nextSize) ++ leBytes k b.data.length ++ b.unused ++
        [0x2a]) ++ leBytes 4 b.descr.length ++ (wide b.descr ++ post) := by
    simp [Block.descrBytes, hk]
  have hlen : (headBytes b.nextSize).length = 9 := by simp [headBytes, hb.nextSize]
  have hne : ¬ (pre ++ (b.descrBytes version ++ post)).length ≤ pos := by
    rw [f1]; simp [hp, hlen]
  have r1 : blockHead .logicError (pre ++ (b.descrBytes version ++ post)) pos = .ok (pos + 9) := by
    rw [f1]; exact blockHead_ok _ _ _ _ _ hp hb.nextSize
  have r2 : readLE k (pre ++ (b.descrBytes version ++ post)) (pos + 9)
      = .ok (b.data.length, pos + 9 + k) := by
    rw [f2, readLE_append _ _ _ k (leBytes_length _ _) (pos + 9) (by simp [hp, hlen]),
      leNat_leBytes _ _ hd]
  have r3 : findTest ((pre ++ (b.descrBytes version ++ post)).drop (pos + 9 + k))
      = .ok (b.unused.length + 1) := by
    rw [f3, drop_pre _ _ _ (by simp [hp, hlen, leBytes_length]; omega), findTest_append _ _ hb.unused]
  have r4 : readLE 4 (pre ++ (b.descrBytes version ++ post)) (pos + 9 + k + (b.unused.length + 1))
      = .ok (b.descr.length, pos + 9 + k + (b.unused.length + 1) + 4) := by
    rw [f4, readLE_append _ _ _ 4 (leBytes_length _ _) _
      (by simp [hp, hlen, leBytes_length]; omega), leNat_leBytes]
    have := hb.descr
    omega
  have hq : pos + 9 + k + (b.unused.length + 1) + 4 + b.descr.length * 2 % 2 ^ 32
      = pos + (b.descrBytes version).length := by
    have := hb.descr
    rw [hl, Nat.mod_eq_of_lt (by omega)]; omega
  rw [blocks, if_neg hne, r1, ok_bind, hk, r2, ok_bind]
  dsimp only
  rw [r3, ok_bind, r4, ok_bind]
  dsimp only
  rw [hq]
  simp only [List.length_eq_zero_iff]
  rfl

/-- Reading one block. -/
theorem blocks_step (version : Int) (pre post : List Byte) (b : Block) (hb : b.WF version)
    (fuel : Nat) (hs : List Header) (pos : Nat) (hp : pos = pre.length) :
    blocks version (pre ++ (b.bytes version ++ post)) (fuel + 1) hs pos =
      (if b.data = [] then
        blocks version (pre ++ (b.bytes version ++ post)) fuel hs
          (pos + (b.descrBytes version).length)
      else match hs with
        | [] => .error .logicError
        | h :: hs => do
          let s ← Serie.mk' h (pre ++ (b.bytes version ++ post))
            (pos + (b.descrBytes version).length) b.data.length
          match jump (pos + (b.descrBytes version).length) b.data.length with
          | none => .error .ub
          | some q' => do
            let rest ← blocks version (pre ++ (b.bytes version ++ post)) fuel hs q'
            pure (s :: rest)) := by
  have e : pre ++ (b.bytes version ++ post) = pre ++ (b.descrBytes version ++ (b.data ++ post)) := by
    simp [Block.bytes]
  rw [e]
  exact blocks_step_cut version pre (b.data ++ post) b hb fuel hs pos hp

/-- Reading all the blocks. -/
theorem blocks_ok (version : Int) (bs : List Block) (pre : List Byte)
    (hb : ∀ b ∈ bs, b.WF version) (hs : List Header)
    (hn : (bs.filter (fun b => b.data ≠ [])).length ≤ hs.length) (fuel : Nat)
    (hf : bs.length < fuel)
    (hl : (pre ++ bs.flatMap (·.bytes version)).length < 2 ^ 63) :
    ∃ ss, blocks version (pre ++ bs.flatMap (·.bytes version)) fuel hs pre.length = .ok ss
      ∧ ss.map (·.toHeader) = hs.take (bs.filter (fun b => b.data ≠ [])).length
      ∧ ss.Pairwise (fun s s' => s.offset + s.memorySize ≤ s'.offset)
      ∧ (∀ s ∈ ss, pre.length ≤ s.offset)
      ∧ List.Forall₂ (fun s b => s.memorySize = b.data.length
          ∧ s.file = { bytes := pre ++ bs.flatMap (·.bytes version),
                       pos := (pre ++ bs.flatMap (·.bytes version)).length }
          ∧ ((pre ++ bs.flatMap (·.bytes version)).drop s.offset).take s.memorySize = b.data)
        ss (bs.filter (fun b => b.data ≠ [])) := by
  induction bs generalizing pre hs fuel with
  | nil =>
    obtain ⟨f, rfl⟩ : ∃ f, fuel = f + 1 := ⟨fuel - 1, by simp at hf; omega⟩
    exact ⟨[], by simp [blocks]⟩
  | cons b bs ih =>
    obtain ⟨f, rfl⟩ : ∃ f, fuel = f + 1 := ⟨fuel - 1, by simp at hf; omega⟩
    have hb0 := hb b (by simp)
    have hfl : (b :: bs).flatMap (·.bytes version)
        = b.bytes version ++ bs.flatMap (·.bytes version) := by simp
    have hfl2 : pre ++ (b.bytes version ++ bs.flatMap (·.bytes version))
        = (pre ++ b.bytes version) ++ bs.flatMap (·.bytes version) := by simp
    have hbl : (b.bytes version).length = (b.descrBytes version).length + b.data.length := by
      simp [Block.bytes]
    rw [hfl] at hl ⊢
    rw [blocks_step version pre _ b hb0 f hs pre.length rfl]
    by_cases hd : b.data = []
    · rw [if_pos hd]
      have hfil : (b :: bs).filter (fun b => b.data ≠ []) = bs.filter (fun b => b.data ≠ []) := by
        simp [hd]
      rw [hfil] at hn ⊢
      obtain ⟨ss, h1, h2, h3, h4, h5⟩ := ih (pre ++ b.bytes version)
        (fun c hc => hb c (by simp [hc])) hs hn f (by simp at hf; omega)
        (by rw [← hfl2]; exact hl)
      rw [← hfl2] at h1 h5
      have he : (pre ++ b.bytes version).length = pre.length + (b.descrBytes version).length := by
        simp [hbl, hd]
      refine ⟨ss, by rw [← he]; exact h1, h2, h3, fun s hs => ?_, h5⟩
      have := h4 s hs
      omega
    · rw [if_neg hd]
      have hfil : (b :: bs).filter (fun b => b.data ≠ [])
          = b :: bs.filter (fun b => b.data ≠ []) := by simp [hd]
      rw [hfil] at hn ⊢
      match hs, hn with
      | h :: hs, hn =>
        have hpos : 0 < b.data.length := List.length_pos_iff.2 hd
        obtain ⟨ss, h1, h2, h3, h4, h5⟩ := ih (pre ++ b.bytes version)
          (fun c hc => hb c (by simp [hc])) hs (by simp at hn ⊢; omega) f
          (by simp at hf; omega) (by rw [← hfl2]; exact hl)
        rw [← hfl2] at h1 h5
        have hlen : (pre ++ (b.bytes version ++ bs.flatMap (·.bytes version))).length
            = pre.length + (b.descrBytes version).length + b.data.length
              + (bs.flatMap (·.bytes version)).length := by
          rw [List.length_append, List.length_append, hbl]; omega
        have hm : Serie.mk' h (pre ++ (b.bytes version ++ bs.flatMap (·.bytes version)))
            (pre.length + (b.descrBytes version).length) b.data.length
            = .ok { h with
                offset := pre.length + (b.descrBytes version).length
                memorySize := b.data.length
                file := { bytes := pre ++ (b.bytes version ++ bs.flatMap (·.bytes version)),
                          pos := (pre ++ (b.bytes version ++ bs.flatMap (·.bytes version))).length } } := by
          unfold Serie.mk'
          rw [if_neg (by omega), if_neg (by omega)]
        have hj : jump (pre.length + (b.descrBytes version).length) b.data.length
            = some (pre.length + (b.descrBytes version).length + b.data.length) := by
          unfold jump
          rw [if_neg (by omega), if_neg (by omega)]
          congr 1
        have he : (pre ++ b.bytes version).length
            = pre.length + (b.descrBytes version).length + b.data.length := by
          simp [hbl]; omega
        rw [he] at h1
        dsimp only
        rw [hm, ok_bind, hj]
        dsimp only
        rw [h1, ok_bind, pure_eq_ok]
        refine ⟨_, rfl, ?_, ?_, ?_, ?_⟩
        · simp [h2]
        · refine List.Pairwise.cons (fun s hs => ?_) h3
          have := h4 s hs
          simp only
          omega
        · intro s hs
          rcases List.mem_cons.1 hs with rfl | hs
          · simp
          · have := h4 s hs
            omega
        · refine List.Forall₂.cons ⟨rfl, rfl, ?_⟩ h5
          simp only
          have : pre ++ (b.bytes version ++ bs.flatMap (·.bytes version))
              = (pre ++ b.descrBytes version) ++ (b.data ++ bs.flatMap (·.bytes version)) := by
            simp [Block.bytes]
          rw [this, drop_pre _ _ _ (by simp), List.take_left']
          rfl

end Colloids.Lif
