import Verif.Py.LifModel
import Verif.Lif.Props

/-! # C159: the index of a `.lif` file made in python -/

namespace Colloids
namespace PyLif

open Lif (Byte leNat leBytes wide headBytes fileBytes Block leBytes_length leNat_leBytes wide_length drop_pre)

theorem everyOther_wide (t : List (Byte × Byte)) : everyOther (wide t) = t.map (·.1) := by
  induction t with
  | nil => rfl
  | cons c t ih => simpa [wide, everyOther] using ih

theorem unpack_append (pre x post : List Byte) (n pos : Nat) (hx : x.length = n) (hp : pos = pre.length) :
    unpack n (pre ++ x ++ post) pos = .ok (x, pos + n) := by
  subst hp
  unfold unpack
  simp [List.append_assoc, ← hx]

theorem skipStar_append (u post : List Byte) (h : (0x2a : Byte) ∉ u) : skipStar (u ++ 0x2a :: post) = .ok (u.length + 1) := by
  induction u with
  | nil => simp [skipStar]
  | cons b u ih =>
    simp only [List.mem_cons, not_or] at h
    have : ¬ b = 0x2a := fun e => h.1 e.symm
    simp only [List.cons_append, skipStar, if_neg this, ih h.2, List.length_cons]
    rfl

theorem skipStar_diverge (u : List Byte) (h : (0x2a : Byte) ∉ u) : skipStar u = .error .diverge := by
  induction u with
  | nil => simp [skipStar]
  | cons b u ih =>
    simp only [List.mem_cons, not_or] at h
    have : ¬ b = 0x2a := fun e => h.1 e.symm
    simp only [skipStar, if_neg this, ih h.2]
    rfl

theorem blockHeader_ok (wide : Bool) (pre nextSize post : List Byte) (size pos : Nat) (hp : pos = pre.length) (hn : nextSize.length = 4)
    (hs : size < 256 ^ (if wide then 8 else 4)) :
    blockHeader wide (pre ++ (headBytes nextSize ++ (leBytes (if wide then 8 else 4) size ++ post))) pos
      = .ok (size, pos + 9 + (if wide then 8 else 4)) := by
  generalize hk : (if wide then 8 else 4 : Nat) = k at hs ⊢
  have hlen : (headBytes nextSize).length = 9 := by simp [headBytes, hn]
  have e1 : pre ++ (headBytes nextSize ++ (leBytes k size ++ post)) = pre ++ headBytes nextSize ++ (leBytes k size ++ post) := by simp
  have e2 : pre ++ (headBytes nextSize ++ (leBytes k size ++ post)) = (pre ++ headBytes nextSize) ++ leBytes k size ++ post := by simp
  have h4 : leNat ((headBytes nextSize).take 4) = 112 := by
    show leNat [0x70, 0, 0, 0] = 112
    decide
  have h8 : (headBytes nextSize)[8]? = some 0x2a := by
    obtain ⟨a, b, c, d, rfl⟩ : ∃ a b c d, nextSize = [a, b, c, d] := by
      match nextSize, hn with
      | [a, b, c, d], _ => exact ⟨a, b, c, d, rfl⟩
    rfl
  unfold blockHeader
  rw [e1, unpack_append pre _ _ 9 pos hlen hp, ok_bind]
  dsimp only
  rw [if_neg (by simp [h4]), if_neg (by simp [h8]), hk, ← e1, e2,
    unpack_append _ _ _ k (pos + 9) (leBytes_length _ _) (by simp [hp, hlen]), ok_bind]
  simp [leNat_leBytes _ _ hs, pure_eq_ok]

/-- One block, whatever follows its description. -/
theorem index_step (version : Int) (pre post : List Byte) (b : Block) (hb : b.WF version) (fuel pos : Nat) (hp : pos = pre.length) :
    index version (pre ++ (b.descrBytes version ++ post)) (fuel + 1) pos =
      (if b.data = [] then index version (pre ++ (b.descrBytes version ++ post)) fuel (pos + (b.descrBytes version).length)
      else if 2 ^ 63 ≤ pos + (b.descrBytes version).length + b.data.length then .error .outOfRange
      else do
        let rest ← index version (pre ++ (b.descrBytes version ++ post)) fuel (pos + (b.descrBytes version).length + b.data.length)
        pure ((pos + (b.descrBytes version).length) :: rest)) := by
  generalize hk : (if (2 : Int) ≤ version then 8 else 4 : Nat) = k
  have hk' : (if decide ((2 : Int) ≤ version) = true then 8 else 4 : Nat) = k := by simpa using hk
  have hd : b.data.length < 256 ^ k := by
    have := hb.data
    subst hk
    split at this <;> rename_i hv
    · rw [if_pos hv]
      omega
    · rw [if_neg hv]
      omega
  have hl : (b.descrBytes version).length = 9 + k + b.unused.length + 1 + 4 + 2 * b.descr.length := by
    simp [Block.descrBytes, headBytes, hb.nextSize, leBytes_length, wide_length, hk]
    omega
  have f1 : pre ++ (b.descrBytes version ++ post)
      = pre ++ (headBytes b.nextSize ++ (leBytes k b.data.length ++ (b.unused ++
        (0x2a :: (leBytes 4 b.descr.length ++ (wide b.descr ++ post)))))) := by
    simp [Block.descrBytes, hk]
  have f3 : pre ++ (b.descrBytes version ++ post)
      = ((pre ++ headBytes b.nextSize) ++ leBytes k b.data.length) ++ (b.unused ++
        (0x2a :: (leBytes 4 b.descr.length ++ (wide b.descr ++ post)))) := by
    simp [Block.descrBytes, hk]
  have f4 : pre ++ (b.descrBytes version ++ post)
      = ((pre ++ headBytes b.nextSize) ++ leBytes k b.data.length ++ b.unused ++
        [0x2a]) ++ leBytes 4 b.descr.length ++ (wide b.descr ++ post) := by
    simp [Block.descrBytes, hk]
  have hlen : (headBytes b.nextSize).length = 9 := by simp [headBytes, hb.nextSize]
  have hne : ¬ (pre ++ (b.descrBytes version ++ post)).length ≤ pos := by
    rw [f1]; simp [hp, hlen]
  have r1 : blockHeader (decide (2 ≤ version)) (pre ++ (b.descrBytes version ++ post)) pos = .ok (b.data.length, pos + 9 + k) := by
    rw [f1]
    have := blockHeader_ok (decide (2 ≤ version)) pre b.nextSize (b.unused ++
      (0x2a :: (leBytes 4 b.descr.length ++ (wide b.descr ++ post)))) b.data.length pos hp hb.nextSize (by rw [hk']; exact hd)
    rw [hk'] at this
    exact this
  have r3 : skipStar ((pre ++ (b.descrBytes version ++ post)).drop (pos + 9 + k)) = .ok (b.unused.length + 1) := by
    rw [f3, drop_pre _ _ _ (by simp [hp, hlen, leBytes_length]; omega), skipStar_append _ _ hb.unused]
  have r4 : unpack 4 (pre ++ (b.descrBytes version ++ post)) (pos + 9 + k + (b.unused.length + 1))
      = .ok (leBytes 4 b.descr.length, pos + 9 + k + (b.unused.length + 1) + 4) := by
    rw [f4, unpack_append _ _ _ 4 _ (leBytes_length _ _) (by simp [hp, hlen, leBytes_length]; omega)]
  have hq : pos + 9 + k + (b.unused.length + 1) + 4 + leNat (leBytes 4 b.descr.length) * 2 = pos + (b.descrBytes version).length := by
    have := hb.descr
    rw [hl, leNat_leBytes _ _ (by omega)]; omega
  rw [index, if_neg hne, r1, ok_bind]
  dsimp only
  rw [r3, ok_bind, r4, ok_bind]
  dsimp only
  rw [hq]
  by_cases h0 : b.data = []
  · simp [h0]
  · have : 0 < b.data.length := List.length_pos_iff.2 h0
    simp only [if_pos this, if_neg h0]

/-- All the blocks: the offsets of those with data, by increasing offset. -/
theorem index_ok (version : Int) (bs : List Block) (pre : List Byte) (hb : ∀ b ∈ bs, b.WF version) (fuel : Nat) (hf : bs.length < fuel)
    (hl : (pre ++ bs.flatMap (·.bytes version)).length < 2 ^ 63) :
    ∃ os, index version (pre ++ bs.flatMap (·.bytes version)) fuel pre.length = .ok os
      ∧ os.Pairwise (· < ·) ∧ (∀ o ∈ os, pre.length ≤ o)
      ∧ List.Forall₂ (fun o b => ((pre ++ bs.flatMap (·.bytes version)).drop o).take b.data.length = b.data
          ∧ ∃ l r, bs = l ++ b :: r ∧ o = (pre ++ l.flatMap (·.bytes version) ++ b.descrBytes version).length)
        os (bs.filter (fun b => b.data ≠ [])) := by
  induction bs generalizing pre fuel with
  | nil =>
    obtain ⟨f, rfl⟩ : ∃ f, fuel = f + 1 := ⟨fuel - 1, by simp at hf; omega⟩
    exact ⟨[], by simp [index]⟩
  | cons b bs ih =>
    obtain ⟨f, rfl⟩ : ∃ f, fuel = f + 1 := ⟨fuel - 1, by simp at hf; omega⟩
    have hb0 := hb b (by simp)
    have hfl : (b :: bs).flatMap (·.bytes version) = b.bytes version ++ bs.flatMap (·.bytes version) := by simp
    have hfl2 : pre ++ (b.bytes version ++ bs.flatMap (·.bytes version)) = (pre ++ b.bytes version) ++ bs.flatMap (·.bytes version) := by simp
    have hfl3 : pre ++ (b.bytes version ++ bs.flatMap (·.bytes version))
        = pre ++ (b.descrBytes version ++ (b.data ++ bs.flatMap (·.bytes version))) := by simp [Block.bytes]
    have hbl : (b.bytes version).length = (b.descrBytes version).length + b.data.length := by simp [Block.bytes]
    rw [hfl] at hl ⊢
    have hst := index_step version pre (b.data ++ bs.flatMap (·.bytes version)) b hb0 f pre.length rfl
    rw [← hfl3] at hst
    rw [hst]
    obtain ⟨os, h1, h2, h3, h4⟩ := ih (pre ++ b.bytes version) (fun c hc => hb c (by simp [hc])) f (by simp at hf; omega)
      (by rw [← hfl2]; exact hl)
    rw [← hfl2] at h1 h4
    have h4' : List.Forall₂ (fun o c => ((pre ++ (b.bytes version ++ bs.flatMap (·.bytes version))).drop o).take c.data.length = c.data
          ∧ ∃ l r, b :: bs = l ++ c :: r ∧ o = (pre ++ l.flatMap (·.bytes version) ++ c.descrBytes version).length)
        os (bs.filter (fun b => b.data ≠ [])) := by
      refine h4.imp ?_
      rintro o c ⟨ha, l, r, hlr, ho⟩
      exact ⟨ha, b :: l, r, by simp [hlr], by rw [ho]; simp⟩
    by_cases hd : b.data = []
    · rw [if_pos hd]
      have he : (pre ++ b.bytes version).length = pre.length + (b.descrBytes version).length := by simp [hbl, hd]
      refine ⟨os, by rw [← he]; exact h1, h2, fun o ho => ?_, ?_⟩
      · have := h3 o ho
        omega
      · rw [show (b :: bs).filter (fun b => b.data ≠ []) = bs.filter (fun b => b.data ≠ []) by simp [hd]]
        exact h4'
    · have hlen : (pre ++ (b.bytes version ++ bs.flatMap (·.bytes version))).length
          = pre.length + (b.descrBytes version).length + b.data.length + (bs.flatMap (·.bytes version)).length := by
        rw [List.length_append, List.length_append, hbl]; omega
      have he : (pre ++ b.bytes version).length = pre.length + (b.descrBytes version).length + b.data.length := by simp [hbl]; omega
      have hpos : 0 < b.data.length := List.length_pos_iff.2 hd
      rw [if_neg hd, if_neg (by omega), ← he, h1, ok_bind, pure_eq_ok]
      refine ⟨_, rfl, ?_, ?_, ?_⟩
      · refine List.Pairwise.cons (fun o ho => ?_) h2
        have := h3 o ho
        omega
      · intro o ho
        rcases List.mem_cons.1 ho with rfl | ho
        · omega
        · have := h3 o ho
          omega
      · rw [show (b :: bs).filter (fun b => b.data ≠ []) = b :: bs.filter (fun b => b.data ≠ []) by simp [hd]]
        refine List.Forall₂.cons ⟨?_, [], bs, rfl, by simp⟩ h4'
        have : pre ++ (b.bytes version ++ bs.flatMap (·.bytes version))
            = (pre ++ b.descrBytes version) ++ (b.data ++ bs.flatMap (·.bytes version)) := by simp [Block.bytes]
        rw [this, drop_pre _ _ _ (by simp), List.take_left']
        rfl

/-- What the constructor reads before the blocks. -/
theorem reader_head {H : Type} (parse : List Byte → R (Int × List (String × H))) (els : List (String × H)) (version : Int)
    (nextSize : List Byte) (xml : List (Byte × Byte)) (rest : List Byte) (hparse : parse (xml.map (·.1)) = .ok (version, els))
    (hn : nextSize.length = 4) (hx : xml.length < 2 ^ 32) :
    reader parse (headBytes nextSize ++ leBytes 4 xml.length ++ wide xml ++ rest)
      = (index version (headBytes nextSize ++ leBytes 4 xml.length ++ wide xml ++ rest)
          ((headBytes nextSize ++ leBytes 4 xml.length ++ wide xml ++ rest).length + 1)
          (headBytes nextSize ++ leBytes 4 xml.length ++ wide xml).length).map fun os => (els, os) := by
  have hlen : (headBytes nextSize).length = 9 := by simp [headBytes, hn]
  have e1 : headBytes nextSize ++ leBytes 4 xml.length ++ wide xml ++ rest
      = [] ++ (headBytes nextSize ++ (leBytes 4 xml.length ++ (wide xml ++ rest))) := by simp
  have e2 : headBytes nextSize ++ leBytes 4 xml.length ++ wide xml ++ rest
      = (headBytes nextSize ++ leBytes 4 xml.length) ++ (wide xml ++ rest) := by simp
  have r1 : blockHeader false (headBytes nextSize ++ leBytes 4 xml.length ++ wide xml ++ rest) 0 = .ok (xml.length, 13) := by
    rw [e1]
    exact blockHeader_ok false [] nextSize _ xml.length 0 rfl hn (by simpa using hx)
  have r2 : ((headBytes nextSize ++ leBytes 4 xml.length ++ wide xml ++ rest).drop 13).take (xml.length * 2) = wide xml := by
    rw [e2, drop_pre _ _ 13 (by simp [hlen, leBytes_length]), List.take_left']
    rw [wide_length]; omega
  have hpre : (headBytes nextSize ++ leBytes 4 xml.length ++ wide xml).length = 13 + (wide xml).length := by
    simp [hlen, leBytes_length]; omega
  unfold reader
  rw [r1, ok_bind]
  dsimp only
  rw [r2, everyOther_wide, hparse, ok_bind, hpre]
  dsimp only
  cases index version (headBytes nextSize ++ leBytes 4 xml.length ++ wide xml ++ rest)
      ((headBytes nextSize ++ leBytes 4 xml.length ++ wide xml ++ rest).length + 1) (13 + (wide xml).length) <;> rfl

theorem flatMap_len (version : Int) (bs : List Block) : bs.length ≤ (bs.flatMap (·.bytes version)).length := by
  induction bs with
  | nil => simp
  | cons b bs ih =>
    rw [List.flatMap_cons, List.length_append, List.length_cons]
    have : 0 < (b.bytes version).length := by simp [Block.bytes, Block.descrBytes]
    omega

/-- C159. For any file made of its parts, opening it gives the elements of the XML header and, for each block with data, in the order of the
file, the place of its data. -/
theorem C159_offsets {H : Type} (parse : List Byte → R (Int × List (String × H))) (els : List (String × H)) (version : Int)
    (nextSize : List Byte) (xml : List (Byte × Byte)) (bs : List Block) (hparse : parse (xml.map (·.1)) = .ok (version, els))
    (hn : nextSize.length = 4) (hx : xml.length < 2 ^ 32) (hb : ∀ b ∈ bs, b.WF version)
    (hl : (fileBytes version nextSize xml bs).length < 2 ^ 63) :
    ∃ os, reader parse (fileBytes version nextSize xml bs) = .ok (els, os) ∧ os.Pairwise (· < ·)
      ∧ List.Forall₂ (fun o b => ((fileBytes version nextSize xml bs).drop o).take b.data.length = b.data
          ∧ ∃ l r, bs = l ++ b :: r ∧ o = (fileBytes version nextSize xml l ++ b.descrBytes version).length)
        os (bs.filter (fun b => b.data ≠ [])) := by
  have hbl := flatMap_len version bs
  obtain ⟨os, h1, h2, -, h4⟩ := index_ok version bs (headBytes nextSize ++ leBytes 4 xml.length ++ wide xml) hb
    ((fileBytes version nextSize xml bs).length + 1) (by simp only [fileBytes, List.length_append]; omega)
    (by rw [fileBytes] at hl; exact hl)
  refine ⟨os, ?_, h2, h4⟩
  unfold fileBytes at h1 ⊢
  rw [reader_head parse els version nextSize xml _ hparse hn hx, h1]
  rfl

theorem getSeries_ok {H : Type} (els : List (String × H)) (os : List Nat) (h : (seriesHeaders els).length ≤ os.length) :
    getSeries (els, os) = .ok ((seriesHeaders els).zip os) := by
  unfold getSeries
  dsimp only
  have key : ∀ (hs : List H) (k : Nat) (os : List Nat), k + hs.length ≤ os.length →
      (hs.zipIdx k).mapM (fun x => match os[x.2]? with
        | some o => (Except.ok (x.1, o) : R (H × Nat))
        | none => .error .outOfRange) = .ok (hs.zip (os.drop k)) := by
    intro hs
    induction hs with
    | nil => intro k os _; simp [pure_eq_ok]
    | cons a hs ih =>
      intro k os hk
      simp only [List.length_cons] at hk
      have hlt : k < os.length := by omega
      rw [List.zipIdx_cons, List.mapM_cons]
      dsimp only
      rw [List.getElem?_eq_getElem hlt]
      dsimp only
      rw [ok_bind, ih (k + 1) os (by omega), ok_bind, pure_eq_ok, List.drop_eq_getElem_cons hlt, List.zip_cons_cons]
  have := key (seriesHeaders els) 0 os (by omega)
  rw [List.drop_zero] at this
  exact this

theorem getSeries_short {H : Type} (els : List (String × H)) (os : List Nat) (h : os.length < (seriesHeaders els).length) :
    getSeries (els, os) = .error .outOfRange := by
  unfold getSeries
  dsimp only
  have key : ∀ (hs : List H) (k : Nat) (os : List Nat), os.length < k + hs.length → k ≤ os.length →
      (hs.zipIdx k).mapM (fun x => match os[x.2]? with
        | some o => (Except.ok (x.1, o) : R (H × Nat))
        | none => .error .outOfRange) = .error .outOfRange := by
    intro hs
    induction hs with
    | nil => intro k os h h'; simp at h; omega
    | cons a hs ih =>
      intro k os h h'
      simp only [List.length_cons] at h
      rw [List.zipIdx_cons, List.mapM_cons]
      dsimp only
      by_cases hk : k = os.length
      · rw [List.getElem?_eq_none (by omega)]
        rfl
      · rw [List.getElem?_eq_getElem (by omega : k < os.length)]
        dsimp only
        rw [ok_bind, ih (k + 1) os (by omega) (by omega)]
        rfl
  exact key (seriesHeaders els) 0 os (by omega) (by omega)

/-- C159. When there are as many series in the XML header as blocks with data, the series number `i` is given the data of the block number
`i` among those. -/
theorem C159_series {H : Type} (parse : List Byte → R (Int × List (String × H))) (els : List (String × H)) (version : Int)
    (nextSize : List Byte) (xml : List (Byte × Byte)) (bs : List Block) (hparse : parse (xml.map (·.1)) = .ok (version, els))
    (hn : nextSize.length = 4) (hx : xml.length < 2 ^ 32) (hb : ∀ b ∈ bs, b.WF version)
    (hl : (fileBytes version nextSize xml bs).length < 2 ^ 63)
    (hc : (seriesHeaders els).length = (bs.filter (fun b => b.data ≠ [])).length) :
    ∃ r ss, reader parse (fileBytes version nextSize xml bs) = .ok r ∧ getSeries r = .ok ss ∧ ss.map (·.1) = seriesHeaders els
      ∧ List.Forall₂ (fun s b => ((fileBytes version nextSize xml bs).drop s.2).take b.data.length = b.data)
        ss (bs.filter (fun b => b.data ≠ [])) := by
  obtain ⟨os, h1, -, h3⟩ := C159_offsets parse els version nextSize xml bs hparse hn hx hb hl
  have hol : os.length = (bs.filter (fun b => b.data ≠ [])).length := h3.length_eq
  refine ⟨_, (seriesHeaders els).zip os, h1, getSeries_ok els os (by omega), List.map_fst_zip (by omega), ?_⟩
  have h4 : List.Forall₂ (fun s b => ((fileBytes version nextSize xml bs).drop s).take b.data.length = b.data)
      (((seriesHeaders els).zip os).map (·.2)) (bs.filter (fun b => b.data ≠ [])) := by
    rw [List.map_snd_zip (by omega)]
    exact h3.imp fun _ _ h => h.1
  rw [List.forall₂_map_left_iff] at h4
  exact h4

/-- C159. The series of the header are its elements after the first one, in order, but those of the two kinds that are not images. -/
theorem C159_headers {H : Type} (root e : String × H) (els : List (String × H)) :
    seriesHeaders ([] : List (String × H)) = [] ∧ seriesHeaders [root] = []
    ∧ ((e.1 = "BleachPointROISet" ∨ e.1 = "DCROISet") → seriesHeaders (root :: e :: els) = seriesHeaders (root :: els))
    ∧ ((e.1 ≠ "BleachPointROISet" ∧ e.1 ≠ "DCROISet") → seriesHeaders (root :: e :: els) = e.2 :: seriesHeaders (root :: els)) := by
  refine ⟨rfl, rfl, ?_, ?_⟩
  · intro h
    unfold seriesHeaders
    rw [List.drop_one, List.drop_one, List.tail_cons, List.tail_cons, List.filter_cons_of_neg]
    rcases h with h | h <;> simp [h]
  · intro h
    unfold seriesHeaders
    rw [List.drop_one, List.drop_one, List.tail_cons, List.tail_cons, List.filter_cons_of_pos (by simpa using h)]
    rfl

example : seriesHeaders [("root", 0), ("Series", 1), ("DCROISet", 2), ("Series", 3)] = [1, 3] := by decide

/-- Both programs on the same blocks. -/
theorem both_ok (version : Int) (bs : List Block) (pre : List Byte) (hb : ∀ b ∈ bs, b.WF version) (hs : List Lif.Header)
    (hn : (bs.filter (fun b => b.data ≠ [])).length ≤ hs.length) (fuel fuel' : Nat) (hf : bs.length < fuel) (hf' : bs.length < fuel')
    (hl : (pre ++ bs.flatMap (·.bytes version)).length < 2 ^ 63) :
    ∃ os ss, index version (pre ++ bs.flatMap (·.bytes version)) fuel pre.length = .ok os
      ∧ Lif.blocks version (pre ++ bs.flatMap (·.bytes version)) fuel' hs pre.length = .ok ss ∧ ss.map (·.offset) = os := by
  induction bs generalizing pre hs fuel fuel' with
  | nil =>
    obtain ⟨f, rfl⟩ : ∃ f, fuel = f + 1 := ⟨fuel - 1, by simp at hf; omega⟩
    obtain ⟨f', rfl⟩ : ∃ f, fuel' = f + 1 := ⟨fuel' - 1, by simp at hf'; omega⟩
    exact ⟨[], [], by simp [index, Lif.blocks]⟩
  | cons b bs ih =>
    obtain ⟨f, rfl⟩ : ∃ f, fuel = f + 1 := ⟨fuel - 1, by simp at hf; omega⟩
    obtain ⟨f', rfl⟩ : ∃ f, fuel' = f + 1 := ⟨fuel' - 1, by simp at hf'; omega⟩
    have hb0 := hb b (by simp)
    have hfl : (b :: bs).flatMap (·.bytes version) = b.bytes version ++ bs.flatMap (·.bytes version) := by simp
    have hfl2 : pre ++ (b.bytes version ++ bs.flatMap (·.bytes version)) = (pre ++ b.bytes version) ++ bs.flatMap (·.bytes version) := by simp
    have hfl3 : pre ++ (b.bytes version ++ bs.flatMap (·.bytes version))
        = pre ++ (b.descrBytes version ++ (b.data ++ bs.flatMap (·.bytes version))) := by simp [Block.bytes]
    have hbl : (b.bytes version).length = (b.descrBytes version).length + b.data.length := by simp [Block.bytes]
    rw [hfl] at hl ⊢
    have hst := index_step version pre (b.data ++ bs.flatMap (·.bytes version)) b hb0 f pre.length rfl
    rw [← hfl3] at hst
    rw [hst, Lif.blocks_step version pre _ b hb0 f' hs pre.length rfl]
    simp only [List.length_cons] at hf hf'
    by_cases hd : b.data = []
    · rw [show (b :: bs).filter (fun b => b.data ≠ []) = bs.filter (fun b => b.data ≠ []) by simp [hd]] at hn
      obtain ⟨os, ss, h1, h2, h3⟩ := ih (pre ++ b.bytes version) (fun c hc => hb c (by simp [hc])) hs hn f f' (by omega) (by omega)
        (by rw [← hfl2]; exact hl)
      rw [← hfl2] at h1 h2
      have he : (pre ++ b.bytes version).length = pre.length + (b.descrBytes version).length := by simp [hbl, hd]
      rw [if_pos hd, if_pos hd, ← he]
      exact ⟨os, ss, h1, h2, h3⟩
    · rw [show (b :: bs).filter (fun b => b.data ≠ []) = b :: bs.filter (fun b => b.data ≠ []) by simp [hd]] at hn
      rw [if_neg hd, if_neg hd]
      match hs, hn with
      | h :: hs, hn =>
        obtain ⟨os, ss, h1, h2, h3⟩ := ih (pre ++ b.bytes version) (fun c hc => hb c (by simp [hc])) hs (by simp at hn ⊢; omega) f f'
          (by omega) (by omega) (by rw [← hfl2]; exact hl)
        rw [← hfl2] at h1 h2
        have hlen : (pre ++ (b.bytes version ++ bs.flatMap (·.bytes version))).length
            = pre.length + (b.descrBytes version).length + b.data.length + (bs.flatMap (·.bytes version)).length := by
          rw [List.length_append, List.length_append, hbl]; omega
        have hpos : 0 < b.data.length := List.length_pos_iff.2 hd
        have hj : Lif.jump (pre.length + (b.descrBytes version).length) b.data.length
            = some (pre.length + (b.descrBytes version).length + b.data.length) := by
          unfold Lif.jump
          rw [if_neg (by omega), if_neg (by omega)]
          congr 1
        have he : (pre ++ b.bytes version).length = pre.length + (b.descrBytes version).length + b.data.length := by simp [hbl]; omega
        rw [he] at h1 h2
        rw [if_neg (by omega), h1, ok_bind, pure_eq_ok]
        dsimp only
        unfold Lif.Serie.mk'
        rw [if_neg (by omega), if_neg (by omega), ok_bind, hj]
        dsimp only
        rw [h2, ok_bind, pure_eq_ok]
        exact ⟨_, _, rfl, rfl, by simp [h3]⟩

/-- C159. On such a file the program in C++ and the program in python give the same places to the series. -/
theorem C159_same_as_cpp {H : Type} (parse : List Byte → R (Int × List (String × H))) (parse' : List Byte → R (Int × List Lif.Header))
    (els : List (String × H)) (hs : List Lif.Header) (version : Int) (nextSize : List Byte) (xml : List (Byte × Byte)) (bs : List Block)
    (hparse : parse (xml.map (·.1)) = .ok (version, els)) (hparse' : parse' (xml.map (·.1)) = .ok (version, hs))
    (hn : nextSize.length = 4) (hx : xml.length < 2 ^ 31) (hb : ∀ b ∈ bs, b.WF version)
    (hl : (fileBytes version nextSize xml bs).length < 2 ^ 63)
    (hc : (seriesHeaders els).length = (bs.filter (fun b => b.data ≠ [])).length)
    (hc' : hs.length = (bs.filter (fun b => b.data ≠ [])).length) :
    ∃ r ss ss', reader parse (fileBytes version nextSize xml bs) = .ok r ∧ getSeries r = .ok ss
      ∧ Lif.lifReader parse' (fileBytes version nextSize xml bs) = .ok ss' ∧ ss.map (·.2) = ss'.map (·.offset) := by
  obtain ⟨os, h1, -, h3⟩ := C159_offsets parse els version nextSize xml bs hparse hn (by omega) hb hl
  have hol : os.length = (bs.filter (fun b => b.data ≠ [])).length := h3.length_eq
  have hbl := flatMap_len version bs
  have e3 : fileBytes version nextSize xml bs = (headBytes nextSize ++ leBytes 4 xml.length ++ wide xml) ++ bs.flatMap (·.bytes version) := rfl
  have hlt : bs.length < (fileBytes version nextSize xml bs).length + 1 := by
    rw [e3, List.length_append]; omega
  have hmul : (fileBytes version nextSize xml bs).length + 1 ≤ (hs.length + 1) * ((fileBytes version nextSize xml bs).length + 1) :=
    Nat.le_mul_of_pos_left _ (by omega)
  obtain ⟨os', ss', g1, g2, g3⟩ := both_ok version bs (headBytes nextSize ++ leBytes 4 xml.length ++ wide xml) hb hs (by omega)
    ((fileBytes version nextSize xml bs).length + 1) ((hs.length + 1) * ((fileBytes version nextSize xml bs).length + 1)) hlt
    (by omega) (by rw [← e3]; exact hl)
  rw [← e3] at g1 g2
  have hr := reader_head parse els version nextSize xml (bs.flatMap (·.bytes version)) hparse hn (by omega)
  rw [← e3, g1, h1] at hr
  have hos : os = os' := by
    have := Except.ok.inj hr
    exact (Prod.mk.inj this).2
  have hlen : (headBytes nextSize).length = 9 := by simp [headBytes, hn]
  have e1 : fileBytes version nextSize xml bs = [] ++ (headBytes nextSize ++
      (leBytes 4 xml.length ++ (wide xml ++ bs.flatMap (·.bytes version)))) := by
    simp [fileBytes]
  have e2 : fileBytes version nextSize xml bs = headBytes nextSize ++ leBytes 4 xml.length ++ (wide xml ++ bs.flatMap (·.bytes version)) := by
    simp [fileBytes]
  have r1 : Lif.blockHead .invalidArgument (fileBytes version nextSize xml bs) 0 = .ok 9 := by
    rw [e1]
    exact Lif.blockHead_ok _ _ _ _ 0 rfl hn
  have r2 : Lif.readLE 4 (fileBytes version nextSize xml bs) 9 = .ok (xml.length, 13) := by
    rw [e2, Lif.readLE_append _ _ _ 4 (leBytes_length _ _) 9 hlen.symm, leNat_leBytes _ _ (by omega)]
  have r3 : ((fileBytes version nextSize xml bs).drop 13).take (xml.length * 2 % 2 ^ 32) = wide xml := by
    rw [e2, drop_pre _ _ 13 (by simp [hlen, leBytes_length]), Nat.mod_eq_of_lt (by omega), List.take_left']
    rw [wide_length]; omega
  have hpre : (headBytes nextSize ++ leBytes 4 xml.length ++ wide xml).length = 13 + xml.length * 2 % 2 ^ 32 := by
    rw [Nat.mod_eq_of_lt (by omega)]
    simp [hlen, leBytes_length, wide_length]; omega
  refine ⟨_, (seriesHeaders els).zip os, ss', h1, getSeries_ok els os (by omega), ?_, ?_⟩
  · unfold Lif.lifReader
    rw [r1, ok_bind, r2, ok_bind]
    dsimp only
    rw [r3, if_neg (by rw [wide_length, Nat.mod_eq_of_lt (by omega)]; omega), Lif.everyOther_wide, hparse', ok_bind]
    dsimp only
    rw [← hpre]
    exact g2
  · rw [List.map_snd_zip (by omega), g3, hos]

/-- Two series and a node that is not one; a block of two bytes and one of one byte, with an empty block between. -/
example : reader (fun x => if x = [60] then .ok (2, [("top", 9), ("a", 1), ("DCROISet", 5), ("b", 2)]) else .error .logicError)
    (fileBytes 2 [5, 0, 0, 0] [(60, 0)] Lif.exBlocks) = .ok ([("top", 9), ("a", 1), ("DCROISet", 5), ("b", 2)], [39, 86]) := by
  decide +kernel

example : getSeries ([("top", 9), ("a", 1), ("DCROISet", 5), ("b", 2)], [39, 86]) = .ok [(1, 39), (2, 86)] := by rfl

/-- C159 fails for a series that is empty: when each series of the XML header has its block, and one of the blocks is empty, no series of the
file can be had, though each of the others has its data. -/
theorem C159_empty_counterexample {H : Type} (parse : List Byte → R (Int × List (String × H))) (els : List (String × H)) (version : Int)
    (nextSize : List Byte) (xml : List (Byte × Byte)) (bs : List Block) (hparse : parse (xml.map (·.1)) = .ok (version, els))
    (hn : nextSize.length = 4) (hx : xml.length < 2 ^ 32) (hb : ∀ b ∈ bs, b.WF version)
    (hl : (fileBytes version nextSize xml bs).length < 2 ^ 63) (hc : (seriesHeaders els).length = bs.length)
    (he : ∃ b ∈ bs, b.data = []) :
    ∃ r, reader parse (fileBytes version nextSize xml bs) = .ok r ∧ getSeries r = .error .outOfRange := by
  obtain ⟨os, h1, -, h3⟩ := C159_offsets parse els version nextSize xml bs hparse hn hx hb hl
  have hol : os.length = (bs.filter (fun b => b.data ≠ [])).length := h3.length_eq
  refine ⟨_, h1, getSeries_short els os ?_⟩
  obtain ⟨b, hb1, hb2⟩ := he
  have hlt : (bs.filter (fun b => b.data ≠ [])).length < bs.length := by
    refine List.length_filter_lt_length_iff_exists.2 ⟨b, hb1, by simp [hb2]⟩
  omega

/-- C159 fails with another order of the blocks: the names of the memories are not read, so that with as many blocks with data as series the
first series always gets the first block with data, whatever the name in its description. -/
theorem C159_order_counterexample {H : Type} (parse : List Byte → R (Int × List (String × H))) (top a b : String × H) (version : Int)
    (nextSize : List Byte) (xml : List (Byte × Byte)) (x y : Block) (hparse : parse (xml.map (·.1)) = .ok (version, [top, a, b]))
    (ha : a.1 ≠ "BleachPointROISet" ∧ a.1 ≠ "DCROISet") (hb' : b.1 ≠ "BleachPointROISet" ∧ b.1 ≠ "DCROISet")
    (hn : nextSize.length = 4) (hx : xml.length < 2 ^ 32) (hwx : x.WF version) (hwy : y.WF version) (hdx : x.data ≠ []) (hdy : y.data ≠ [])
    (hl : (fileBytes version nextSize xml [x, y]).length < 2 ^ 63) (hl' : (fileBytes version nextSize xml [y, x]).length < 2 ^ 63) :
    (∃ r o o', reader parse (fileBytes version nextSize xml [x, y]) = .ok r ∧ getSeries r = .ok [(a.2, o), (b.2, o')]
      ∧ ((fileBytes version nextSize xml [x, y]).drop o).take x.data.length = x.data)
    ∧ ∃ r o o', reader parse (fileBytes version nextSize xml [y, x]) = .ok r ∧ getSeries r = .ok [(a.2, o), (b.2, o')]
      ∧ ((fileBytes version nextSize xml [y, x]).drop o).take y.data.length = y.data := by
  have hsh : seriesHeaders [top, a, b] = [a.2, b.2] := by
    simp [seriesHeaders, ha, hb']
  have key : ∀ x y : Block, x.WF version → y.WF version → x.data ≠ [] → y.data ≠ [] →
      (fileBytes version nextSize xml [x, y]).length < 2 ^ 63 →
      ∃ r o o', reader parse (fileBytes version nextSize xml [x, y]) = .ok r ∧ getSeries r = .ok [(a.2, o), (b.2, o')]
      ∧ ((fileBytes version nextSize xml [x, y]).drop o).take x.data.length = x.data := by
    intro x y hwx hwy hdx hdy hl
    have hfil : [x, y].filter (fun b => b.data ≠ []) = [x, y] := by simp [hdx, hdy]
    obtain ⟨os, h1, -, h3⟩ := C159_offsets parse [top, a, b] version nextSize xml [x, y] hparse hn hx
      (by intro c hc; simp only [List.mem_cons, List.not_mem_nil, or_false] at hc; rcases hc with rfl | rfl <;> assumption) hl
    rw [hfil] at h3
    match os, h3 with
    | [o, o'], h3 =>
      refine ⟨_, o, o', h1, ?_, ?_⟩
      · rw [getSeries_ok _ _ (by rw [hsh]; simp), hsh]
        rfl
      · cases h3 with
        | cons h _ => exact h.1
  exact ⟨key x y hwx hwy hdx hdy hl, key y x hwy hwx hdy hdx hl'⟩

/-- C159 fails for a file that has been cut: when the data of the last block are cut, the file is opened and the series is given, without an
exception (the program in C++ refuses the file, C74). -/
theorem C159_cut_counterexample (version : Int) (pre cut : List Byte) (b : Block) (hb : b.WF version) (hcut : cut.length < b.data.length)
    (hl : (pre ++ b.bytes version).length < 2 ^ 63) (fuel : Nat) :
    index version (pre ++ (b.descrBytes version ++ cut)) (fuel + 2) pre.length = .ok [pre.length + (b.descrBytes version).length] := by
  have hlen : (pre ++ b.bytes version).length = pre.length + (b.descrBytes version).length + b.data.length := by
    simp [Block.bytes]; omega
  have hne : b.data ≠ [] := by
    intro h0
    simp [h0] at hcut
  rw [index_step version pre cut b hb (fuel + 1) pre.length rfl, if_neg hne, if_neg (by omega), index, if_pos, ok_bind, pure_eq_ok]
  simp only [List.length_append]
  omega

/-- C159 fails for a file cut before the second test code of a block: opening it never ends. -/
theorem C159_diverge_counterexample (version : Int) (pre nextSize post : List Byte) (size : Nat) (hn : nextSize.length = 4)
    (hsize : size < 2 ^ 32) (hp : (0x2a : Byte) ∉ post) (fuel : Nat) :
    index version (pre ++ (headBytes nextSize ++ (leBytes (if 2 ≤ version then 8 else 4) size ++ post))) (fuel + 1) pre.length
      = .error .diverge := by
  have hlen : (headBytes nextSize).length = 9 := by simp [headBytes, hn]
  generalize hk : (if (2 : Int) ≤ version then 8 else 4 : Nat) = k
  have hk' : (if decide ((2 : Int) ≤ version) = true then 8 else 4 : Nat) = k := by simpa using hk
  have hd : size < 256 ^ k := by
    subst hk
    split <;> omega
  have r1 := blockHeader_ok (decide (2 ≤ version)) pre nextSize post size pre.length rfl hn (by rw [hk']; exact hd)
  rw [hk'] at r1
  have f2 : pre ++ (headBytes nextSize ++ (leBytes k size ++ post)) = (pre ++ headBytes nextSize ++ leBytes k size) ++ post := by simp
  rw [index, if_neg (by simp [hlen]), r1, ok_bind]
  dsimp only
  rw [f2, drop_pre _ _ _ (by simp [hlen, leBytes_length]; omega), skipStar_diverge _ hp]
  rfl

/-- C159. A file that does not begin with the code of a block, or has not the test code after it, is refused. -/
theorem C159_wrong_code {H : Type} (parse : List Byte → R (Int × List (String × H))) (bytes : List Byte) (h9 : 9 ≤ bytes.length)
    (h : bytes.take 4 ≠ [0x70, 0, 0, 0] ∨ bytes[8]? ≠ some 0x2a) : reader parse bytes = .error .logicError := by
  have h1 : unpack 9 bytes 0 = .ok (bytes.take 9, 9) := by
    unfold unpack
    rw [List.drop_zero, if_neg (by simp; omega)]
  have : blockHeader false bytes 0 = .error .logicError := by
    unfold blockHeader
    rw [h1, ok_bind]
    dsimp only
    rw [List.take_take]
    by_cases hc : leNat (bytes.take (min 4 9)) ≠ 112
    · rw [if_pos hc]
    · rw [if_neg hc]
      push Not at hc
      rcases h with h | h
      · exfalso
        apply h
        match bytes, h9, hc with
        | a :: b :: c :: d :: rest, _, hc =>
          simp only [Nat.min_def, List.take_succ_cons, List.take_zero, leNat] at hc ⊢
          have ha := a.toNat_lt
          have hb := b.toNat_lt
          have hc' := c.toNat_lt
          have hd := d.toNat_lt
          simp [leNat] at hc
          have e1 : a.toNat = 0x70 := by omega
          have e2 : b.toNat = 0 := by omega
          have e3 : c.toNat = 0 := by omega
          have e4 : d.toNat = 0 := by omega
          simp only [List.cons.injEq, and_true]
          exact ⟨UInt8.toNat_inj.1 e1, UInt8.toNat_inj.1 e2, UInt8.toNat_inj.1 e3, UInt8.toNat_inj.1 e4⟩
      · rw [if_pos]
        rw [List.getElem?_take_of_lt (by omega)]
        exact h
  unfold reader
  rw [this]
  rfl

end PyLif
end Colloids
