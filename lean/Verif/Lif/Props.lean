import Verif.Lif.HeaderLemmas

/-!
# Properties of the reader of `.lif` files (C49, C74, C75)
-/

namespace Colloids.Lif

/-! ## C74: the blocks of a file -/

/-- C74. Whatever the parts of a file (well-formed blocks, no more of them with data than
series in the XML header, less than `2 ^ 63` bytes), reading it gives one series for each
block with data, in the order of the file, with the headers in the order of the XML; the
place of each series holds its data, and series do not overlap. -/
theorem C74_blocks (parse : List Byte → R (Int × List Header)) (version : Int)
    (hs : List Header) (nextSize : List Byte) (xml : List (Byte × Byte)) (bs : List Block)
    (hparse : parse (xml.map (·.1)) = .ok (version, hs)) (hn : nextSize.length = 4)
    (hx : xml.length < 2 ^ 31) (hb : ∀ b ∈ bs, b.WF version)
    (hc : (bs.filter (fun b => b.data ≠ [])).length ≤ hs.length)
    (hl : (fileBytes version nextSize xml bs).length < 2 ^ 63) :
    ∃ ss, lifReader parse (fileBytes version nextSize xml bs) = .ok ss
      ∧ ss.map (·.toHeader) = hs.take (bs.filter (fun b => b.data ≠ [])).length
      ∧ ss.Pairwise (fun s s' => s.offset + s.memorySize ≤ s'.offset)
      ∧ List.Forall₂ (fun s b => s.memorySize = b.data.length
          ∧ s.file.bytes = fileBytes version nextSize xml bs ∧ s.file.failed = false
          ∧ ((fileBytes version nextSize xml bs).drop s.offset).take s.memorySize = b.data)
        ss (bs.filter (fun b => b.data ≠ [])) := by
  have hlen : (headBytes nextSize).length = 9 := by simp [headBytes, hn]
  have e1 : fileBytes version nextSize xml bs = [] ++ (headBytes nextSize ++
      (leBytes 4 xml.length ++ (wide xml ++ bs.flatMap (·.bytes version)))) := by
    simp [fileBytes]
  have e2 : fileBytes version nextSize xml bs = headBytes nextSize ++ leBytes 4 xml.length
      ++ (wide xml ++ bs.flatMap (·.bytes version)) := by
    simp [fileBytes]
  have e3 : fileBytes version nextSize xml bs
      = (headBytes nextSize ++ leBytes 4 xml.length ++ wide xml)
        ++ bs.flatMap (·.bytes version) := by
    simp [fileBytes]
  have r1 : blockHead .invalidArgument (fileBytes version nextSize xml bs) 0 = .ok 9 := by
    rw [e1]
    exact blockHead_ok _ _ _ _ 0 rfl hn
  have r2 : readLE 4 (fileBytes version nextSize xml bs) 9 = .ok (xml.length, 13) := by
    rw [e2, readLE_append _ _ _ 4 (leBytes_length _ _) 9 hlen.symm, leNat_leBytes _ _ (by omega)]
  have r3 : ((fileBytes version nextSize xml bs).drop 13).take (xml.length * 2 % 2 ^ 32)
      = wide xml := by
    rw [e2, drop_pre _ _ 13 (by simp [hlen, leBytes_length]), Nat.mod_eq_of_lt (by omega),
      List.take_left']
    rw [wide_length]; omega
  have hpre : (headBytes nextSize ++ leBytes 4 xml.length ++ wide xml).length
      = 13 + xml.length * 2 % 2 ^ 32 := by
    rw [Nat.mod_eq_of_lt (by omega)]
    simp [hlen, leBytes_length, wide_length]; omega
  have hbl : bs.length ≤ (bs.flatMap (·.bytes version)).length := by
    clear hb hc hl e1 e2 e3 r1 r2 r3
    induction bs with
    | nil => simp
    | cons b bs ih =>
      rw [List.flatMap_cons, List.length_append, List.length_cons]
      have : 0 < (b.bytes version).length := by simp [Block.bytes, Block.descrBytes]
      omega
  have hfl : (fileBytes version nextSize xml bs).length
      = 13 + xml.length * 2 % 2 ^ 32 + (bs.flatMap (·.bytes version)).length := by
    rw [e3, List.length_append, hpre]
  obtain ⟨ss, h1, h2, h3, -, h5⟩ := blocks_ok version bs
    (headBytes nextSize ++ leBytes 4 xml.length ++ wide xml) hb hs hc
    ((hs.length + 1) * ((fileBytes version nextSize xml bs).length + 1))
    (by
      have : 1 * ((fileBytes version nextSize xml bs).length + 1)
        ≤ (hs.length + 1) * ((fileBytes version nextSize xml bs).length + 1) :=
        Nat.mul_le_mul_right _ (by omega)
      omega)
    (by rw [← e3]; exact hl)
  rw [← e3] at h1 h5
  refine ⟨ss, ?_, h2, h3, ?_⟩
  · unfold lifReader
    rw [r1, ok_bind, r2, ok_bind]
    dsimp only
    rw [r3, if_neg (by rw [wide_length, Nat.mod_eq_of_lt (by omega)]; omega), everyOther_wide,
      hparse, ok_bind]
    dsimp only
    rw [← hpre]
    exact h1
  · refine h5.imp ?_
    rintro s b ⟨ha, hf, hd⟩
    refine ⟨ha, ?_, ?_, hd⟩ <;> rw [hf]

/-- Two series: a block of two bytes and one of one byte, with an empty block between. -/
def exBlocks : List Block :=
  [⟨[9, 0, 0, 0], [], [(65, 0)], [1, 2]⟩, ⟨[9, 0, 0, 0], [7], [], []⟩,
    ⟨[9, 0, 0, 0], [], [], [3]⟩]

def exHeader : Header := { dimensions := [], channels := [8] }

example : lifReader (fun x => if x = [60] then .ok (2, [exHeader, exHeader]) else .error .logicError)
    (fileBytes 2 [5, 0, 0, 0] [(60, 0)] exBlocks)
    = .ok [{ exHeader with offset := 39, memorySize := 2, file :=
              { bytes := fileBytes 2 [5, 0, 0, 0] [(60, 0)] exBlocks, pos := 87 } },
           { exHeader with offset := 86, memorySize := 1, file :=
              { bytes := fileBytes 2 [5, 0, 0, 0] [(60, 0)] exBlocks, pos := 87 } }] := by
  decide +kernel

example : ∀ b ∈ exBlocks, b.WF 2 := by
  intro b hb
  simp only [exBlocks, List.mem_cons, List.not_mem_nil, or_false] at hb
  rcases hb with rfl | rfl | rfl <;> exact ⟨rfl, by decide, by decide, by decide⟩

/-- C74. More blocks with data than series in the XML header: an exception. -/
theorem C74_too_many (version : Int) (bs : List Block) (pre : List Byte)
    (hb : ∀ b ∈ bs, b.WF version) (hs : List Header)
    (hn : hs.length < (bs.filter (fun b => b.data ≠ [])).length) (fuel : Nat)
    (hf : bs.length < fuel)
    (hl : (pre ++ bs.flatMap (·.bytes version)).length < 2 ^ 63) :
    blocks version (pre ++ bs.flatMap (·.bytes version)) fuel hs pre.length
      = .error .logicError := by
  induction bs generalizing pre hs fuel with
  | nil => simp at hn
  | cons b bs ih =>
    obtain ⟨f, rfl⟩ : ∃ f, fuel = f + 1 := ⟨fuel - 1, by simp at hf; omega⟩
    have hb0 := hb b (by simp)
    have hfl : (b :: bs).flatMap (·.bytes version)
        = b.bytes version ++ bs.flatMap (·.bytes version) := by simp
    have hfl2 : pre ++ (b.bytes version ++ bs.flatMap (·.bytes version))
        = (pre ++ b.bytes version) ++ bs.flatMap (·.bytes version) := by simp
    have hbl : (b.bytes version).length = (b.descrBytes version).length + b.data.length := by
      simp [Block.bytes]
    rw [hfl] at hl ⊢
    rw [blocks_step version pre _ b hb0 f hs pre.length rfl]
    by_cases hd : b.data = []
    · rw [if_pos hd]
      have hfil : (b :: bs).filter (fun b => b.data ≠ []) = bs.filter (fun b => b.data ≠ []) := by
        simp [hd]
      rw [hfil] at hn
      have h1 := ih (pre ++ b.bytes version) (fun c hc => hb c (by simp [hc])) hs hn f
        (by simp at hf; omega) (by rw [← hfl2]; exact hl)
      rw [← hfl2] at h1
      have he : (pre ++ b.bytes version).length = pre.length + (b.descrBytes version).length := by
        simp [hbl, hd]
      rw [← he]; exact h1
    · rw [if_neg hd]
      have hfil : (b :: bs).filter (fun b => b.data ≠ [])
          = b :: bs.filter (fun b => b.data ≠ []) := by simp [hd]
      rw [hfil] at hn
      match hs, hn with
      | [], _ => rfl
      | h :: hs, hn =>
        have hpos : 0 < b.data.length := List.length_pos_iff.2 hd
        have h1 := ih (pre ++ b.bytes version) (fun c hc => hb c (by simp [hc])) hs
          (by simp at hn ⊢; omega) f (by simp at hf; omega) (by rw [← hfl2]; exact hl)
        rw [← hfl2] at h1
        have hlen : (pre ++ (b.bytes version ++ bs.flatMap (·.bytes version))).length
            = pre.length + (b.descrBytes version).length + b.data.length
              + (bs.flatMap (·.bytes version)).length := by
          rw [List.length_append, List.length_append, hbl]; omega
        have hj : jump (pre.length + (b.descrBytes version).length) b.data.length
            = some (pre.length + (b.descrBytes version).length + b.data.length) := by
          unfold jump
          rw [if_neg (by omega), if_neg (by omega)]
          congr 1
        have he : (pre ++ b.bytes version).length
            = pre.length + (b.descrBytes version).length + b.data.length := by
          simp [hbl]; omega
        rw [he] at h1
        dsimp only
        unfold Serie.mk'
        rw [if_neg (by omega), if_neg (by omega), ok_bind, hj]
        dsimp only
        rw [h1]
        rfl

/-- C74. A file that does not begin with the code of memory blocks is refused. -/
theorem C74_wrong_code (parse : List Byte → R (Int × List Header)) (bytes : List Byte)
    (h4 : 4 ≤ bytes.length) (h : bytes.take 4 ≠ [0x70, 0, 0, 0]) :
    lifReader parse bytes = .error .invalidArgument := by
  have : leNat (bytes.take 4) ≠ memBlockCode := by
    match bytes, h4, h with
    | a :: b :: c :: d :: rest, _, h =>
      intro hc
      apply h
      simp only [List.take_succ_cons, List.take_zero, leNat, memBlockCode] at hc ⊢
      have ha := a.toNat_lt
      have hb := b.toNat_lt
      have hc' := c.toNat_lt
      have hd := d.toNat_lt
      have e1 : a.toNat = 0x70 := by omega
      have e2 : b.toNat = 0 := by omega
      have e3 : c.toNat = 0 := by omega
      have e4 : d.toNat = 0 := by omega
      simp only [List.cons.injEq, and_true]
      exact ⟨UInt8.toNat_inj.1 e1, UInt8.toNat_inj.1 e2, UInt8.toNat_inj.1 e3,
        UInt8.toNat_inj.1 e4⟩
  unfold lifReader blockHead readLE
  rw [List.drop_zero, if_neg (by simp; omega), ok_bind]
  dsimp only
  rw [if_pos this]
  rfl

/-- A program looking at blocks in a file that has been cut, `post` being what is left of
a block after the size of its data. -/
theorem truncated_diverge (version : Int) (pre nextSize post : List Byte) (size : Nat)
    (hn : nextSize.length = 4) (hsize : size < 2 ^ 32) (hp : (0x2a : Byte) ∉ post)
    (hs : List Header) (fuel : Nat) :
    blocks version (pre ++ (headBytes nextSize ++ (leBytes (if 2 ≤ version then 8 else 4) size
      ++ post))) (fuel + 1) hs pre.length = .error .diverge := by
  generalize hk : (if (2 : Int) ≤ version then 8 else 4 : Nat) = k
  have hlen : (headBytes nextSize).length = 9 := by simp [headBytes, hn]
  have hd : size < 256 ^ k := by
    subst hk
    split <;> omega
  have r1 := blockHead_ok .logicError pre nextSize (leBytes k size ++ post) pre.length rfl hn
  have f2 : pre ++ (headBytes nextSize ++ (leBytes k size ++ post))
      = (pre ++ headBytes nextSize) ++ leBytes k size ++ post := by simp
  have r2 : readLE k (pre ++ (headBytes nextSize ++ (leBytes k size ++ post))) (pre.length + 9)
      = .ok (size, pre.length + 9 + k) := by
    rw [f2, readLE_append _ _ _ k (leBytes_length _ _) (pre.length + 9) (by simp [hlen]),
      leNat_leBytes _ _ hd]
  rw [blocks, if_neg (by simp [hlen]), r1, ok_bind, hk, r2, ok_bind]
  dsimp only
  rw [f2, drop_pre _ _ _ (by simp [hlen, leBytes_length]; omega), findTest_diverge _ hp]
  rfl

/-- C74 fails on files that have been cut: after the size of the data of any block the
search of the next test code never ends, whatever the bytes left, and before it
uninitialised memory is used. A user would expect an exception, as when the data are cut. -/
theorem C74_truncated_counterexample :
    (∀ (version : Int) (pre nextSize post : List Byte) (size : Nat), nextSize.length = 4 →
      size < 2 ^ 32 → (0x2a : Byte) ∉ post → ∀ (hs : List Header) (fuel : Nat),
      blocks version (pre ++ (headBytes nextSize ++
        (leBytes (if 2 ≤ version then 8 else 4) size ++ post))) (fuel + 1) hs pre.length
        = .error .diverge)
    ∧ (∀ (version : Int) (pre : List Byte) (hs : List Header) (fuel : Nat),
      blocks version (pre ++ [0x70, 0, 0]) (fuel + 1) hs pre.length = .error .ub) := by
  refine ⟨fun v pre nextSize post size hn hsz hp hs fuel =>
    truncated_diverge v pre nextSize post size hn hsz hp hs fuel, ?_⟩
  intro v pre hs fuel
  rw [blocks, if_neg (by simp)]
  unfold blockHead readLE
  simp

/-- C74. When the file ends inside the data of a block: an exception. -/
theorem C74_data_cut (version : Int) (pre : List Byte) (b : Block) (hb : b.WF version)
    (cut : List Byte) (h : Header) (hs : List Header) (fuel : Nat)
    (hcut : cut.length < b.data.length)
    (hl : (pre ++ b.bytes version).length < 2 ^ 64) :
    blocks version (pre ++ (b.descrBytes version ++ cut)) (fuel + 1) (h :: hs) pre.length
      = .error .invalidArgument := by
  have hlen : (pre ++ b.bytes version).length
    = pre.length + (b.descrBytes version).length + b.data.length := by
    simp [Block.bytes]; omega
  have hne : b.data ≠ [] := by
    intro h0
    simp [h0] at hcut
  have hm : Serie.mk' h (pre ++ (b.descrBytes version ++ cut))
      (pre.length + (b.descrBytes version).length) b.data.length = .error .invalidArgument := by
    unfold Serie.mk'
    split
    · rfl
    · rw [if_pos]
      rw [Nat.mod_eq_of_lt (by omega)]
      simp
      omega
  rw [blocks_step_cut version pre cut b hb fuel (h :: hs) pre.length rfl, if_neg hne]
  dsimp only
  rw [hm]
  rfl

end Colloids.Lif
