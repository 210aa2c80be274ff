import Mathlib.Data.List.Basic
import Mathlib.Algebra.Order.Field.Rat
import Mathlib.Tactic.Linarith
import Verif.CommonLemmas
import Verif.Dyn.ExportModel

/-! # The files of `exportDynamics`: C231 -/

namespace Colloids
namespace DynExport

variable {F : Type}

/-- The lines of a file. -/
def lines : List (Cell F) → List (List (Cell F))
  | [] => [[]]
  | .nl :: r => [] :: lines r
  | c :: r =>
    match lines r with
    | [] => [[c]]
    | l :: ls => (c :: l) :: ls

/-- The numbers of a line. -/
def numbers (l : List (Cell F)) : List F := l.filterMap fun c => match c with
  | .num x => some x
  | _ => none

/-- How a table is read: a line that begins with a text is a comment, an empty line is skipped, the others are rows of numbers. -/
def readTable (f : List (Cell F)) : List (List F) := (lines f).filterMap fun l => match l with
  | [] => none
  | .text _ :: _ => none
  | l => some (numbers l)

theorem lines_append (a r : List (Cell F)) (h : Cell.nl ∉ a) : lines (a ++ .nl :: r) = a :: lines r := by
  induction a with
  | nil => rfl
  | cons c a ih =>
    have h1 := ih fun hm => h (List.mem_cons_of_mem _ hm)
    cases c with
    | nl => exact absurd List.mem_cons_self h
    | text s => simp only [List.cons_append, lines, h1]
    | num x => simp only [List.cons_append, lines, h1]
    | tab => simp only [List.cons_append, lines, h1]

/-- The row of a time: the time and the values. -/
def rowCells (x : F) (vs : List F) : List (Cell F) := .num x :: vs.flatMap fun v => [.tab, .num v]

theorem rowCells_nl (x : F) (vs : List F) : Cell.nl ∉ rowCells x vs := by
  simp [rowCells]

theorem numbers_row (x : F) (vs : List F) : numbers (rowCells x vs) = x :: vs := by
  have : ∀ l : List F, numbers (l.flatMap fun v => [Cell.tab, Cell.num v]) = l := by
    intro l
    induction l with
    | nil => rfl
    | cons a l ih =>
      rw [List.flatMap_cons]
      simp only [numbers, List.cons_append, List.nil_append, List.filterMap_cons] at ih ⊢
      rw [ih]
  have h := this vs
  simp only [numbers, rowCells, List.filterMap_cons] at h ⊢
  rw [h]

/-- The head of a file, without the end of the line, then rows. -/
theorem read_eq (s : String) (hd : List (Cell F)) (hnl : Cell.nl ∉ hd) (rows : List (F × List F)) :
    readTable ((.text s :: hd) ++ rows.flatMap fun r => rowCells r.1 r.2 ++ [.nl]) = rows.tail.map fun r => r.1 :: r.2 := by
  have hbody : ∀ rs : List (F × List F), readTable (rs.flatMap fun r => rowCells r.1 r.2 ++ [Cell.nl]) = rs.map fun r => r.1 :: r.2 := by
    intro rs
    induction rs with
    | nil => rfl
    | cons r rs ih =>
      rw [List.flatMap_cons, List.append_assoc, List.singleton_append, readTable, lines_append _ _ (rowCells_nl _ _), List.filterMap_cons]
      have e : (match rowCells r.1 r.2 with
        | [] => none
        | Cell.text _ :: _ => none
        | l => some (numbers l)) = some (r.1 :: r.2) := by
        rw [← numbers_row r.1 r.2]; rfl
      rw [e, List.map_cons, ← ih, readTable]
  cases rows with
  | nil =>
    have : ∀ l : List (Cell F), Cell.nl ∉ l → lines l = [l] := by
      intro l
      induction l with
      | nil => intro _; rfl
      | cons c l ih =>
        intro h
        have h1 := ih fun hm => h (List.mem_cons_of_mem _ hm)
        cases c with
        | nl => exact absurd List.mem_cons_self h
        | text s => simp only [lines, h1]
        | num x => simp only [lines, h1]
        | tab => simp only [lines, h1]
    rw [List.flatMap_nil, List.append_nil, readTable, this _ (by simpa using hnl)]
    rfl
  | cons r rs =>
    rw [List.flatMap_cons, List.append_assoc, List.singleton_append, ← List.append_assoc, readTable, lines_append _ _ (by
      simp only [List.cons_append, List.mem_cons, List.mem_append, reduceCtorEq, false_or, not_or]
      exact ⟨hnl, rowCells_nl _ _⟩), List.filterMap_cons]
    simp only [List.cons_append, List.tail_cons]
    rw [← hbody rs, readTable]

/-- Tables of the same size, one for each set, and names. -/
structure Sized (names : List String) (nsets T : Nat) (MSD ISF NGP : List (List F)) : Prop where
  names : nsets ≤ names.length
  msd : MSD.length = nsets
  ngp : NGP.length = nsets
  isf : ISF.length = 4 * nsets
  msdT : ∀ l ∈ MSD, l.length = T
  ngpT : ∀ l ∈ NGP, l.length = T
  isfT : ∀ l ∈ ISF, l.length = T

theorem getR_getD {A : Type} [Inhabited A] {l : List A} {i : Nat} (h : i < l.length) : getR l i = .ok (l.getD i default) := by
  rw [getR_of_lt h, List.getD_eq_getElem?_getD, List.getElem?_eq_getElem h]
  rfl

theorem heads_eq (names : List String) (n : Nat) (h : n ≤ names.length) :
    ∃ a b c : List (Cell F), heads names n = .ok (.text "#t" :: a, .text "#t" :: b, .text "#t" :: c) ∧ Cell.nl ∉ a ∧ Cell.nl ∉ b ∧ Cell.nl ∉ c := by
  induction n with
  | zero => exact ⟨[], [], [], rfl, by simp, by simp, by simp⟩
  | succ n ih =>
    obtain ⟨a, b, c, hr, ha, hb, hc⟩ := ih (by omega)
    rw [heads] at hr
    rw [heads, List.range_succ, List.foldlM_append, hr, ok_bind, List.foldlM_cons, getR_of_lt (show n < names.length by omega), ok_bind, pure_eq_ok,
      ok_bind, List.foldlM_nil, pure_eq_ok]
    refine ⟨_, _, _, rfl, ?_, ?_, ?_⟩
    · simpa using ha
    · simpa using hb
    · simpa using hc

/-- The column number `t` of the first `n` tables. -/
def column [Inhabited F] (M : List (List F)) (n t : Nat) : List F := (List.range n).map fun s => (M.getD s default).getD t default

theorem cell_get [Inhabited F] {M : List (List F)} {T s t : Nat} (hT : ∀ l ∈ M, l.length = T) (hs : s < M.length) (ht : t < T) :
    (getR M s >>= fun l => getR l t) = .ok ((M.getD s default).getD t default) := by
  have hm : M.getD s default ∈ M := by
    rw [List.getD_eq_getElem?_getD, List.getElem?_eq_getElem hs]; exact List.getElem_mem hs
  rw [getR_getD hs, ok_bind, getR_getD (by rw [hT _ hm]; exact ht)]

theorem sets_eq [Inhabited F] {names : List String} {nsets T : Nat} {MSD ISF NGP : List (List F)} (hz : Sized names nsets T MSD ISF NGP) {t : Nat} (ht : t < T)
    (n : Nat) (hn : n ≤ nsets) (a b c : List (Cell F)) :
    (List.range n).foldlM (setCells MSD ISF NGP t) (a, b, c) =
      .ok (a ++ (column MSD n t).flatMap (fun v => [.tab, .num v]), b ++ (column ISF (4 * n) t).flatMap (fun v => [.tab, .num v]),
        c ++ (column NGP n t).flatMap (fun v => [.tab, .num v])) := by
  induction n with
  | zero => simp [column, pure_eq_ok]
  | succ n ih =>
    rw [List.range_succ, List.foldlM_append, ih (by omega), ok_bind, List.foldlM_cons]
    have h1 := cell_get hz.msdT (s := n) (by rw [hz.msd]; omega) ht
    have h2 := cell_get hz.ngpT (s := n) (by rw [hz.ngp]; omega) ht
    have h3 := fun d (hd : d < 4) => cell_get hz.isfT (s := 4 * n + d) (by rw [hz.isf]; omega) ht
    have h30 := h3 0 (by omega)
    have h31 := h3 1 (by omega)
    have h32 := h3 2 (by omega)
    have h33 := h3 3 (by omega)
    rw [bind_ok] at h1 h2 h30 h31 h32 h33
    obtain ⟨l1, e1, f1⟩ := h1
    obtain ⟨l2, e2, f2⟩ := h2
    obtain ⟨l30, e30, f30⟩ := h30
    obtain ⟨l31, e31, f31⟩ := h31
    obtain ⟨l32, e32, f32⟩ := h32
    obtain ⟨l33, e33, f33⟩ := h33
    have r4 : List.range 4 = [0, 1, 2, 3] := rfl
    simp only [setCells, e1, f1, e2, f2, r4, List.foldlM_cons, List.foldlM_nil, e30, f30, e31, f31, e32, f32, e33, f33, ok_bind, pure_eq_ok]
    have c4 : column ISF (4 * (n + 1)) t = column ISF (4 * n) t ++ [(ISF.getD (4 * n + 0) default).getD t default, (ISF.getD (4 * n + 1) default).getD t default,
        (ISF.getD (4 * n + 2) default).getD t default, (ISF.getD (4 * n + 3) default).getD t default] := by
      unfold column
      rw [show 4 * (n + 1) = 4 * n + 4 by omega, List.range_add, List.map_append]
      rfl
    have c1 : ∀ M : List (List F), column M (n + 1) t = column M n t ++ [(M.getD n default).getD t default] := by
      intro M
      unfold column
      rw [List.range_succ, List.map_append]
      rfl
    rw [c4, c1, c1]
    simp

theorem times_eq [Mul F] [NatCast F] [Inhabited F] {names : List String} {nsets T : Nat} {MSD ISF NGP : List (List F)} (dt : F)
    (hz : Sized names nsets T MSD ISF NGP) (n : Nat) (hn : n ≤ T) (a b c : List (Cell F)) :
    (List.range n).foldlM (timeCells dt nsets MSD ISF NGP) (a, b, c) =
      .ok (a ++ ((List.range n).map fun (t : Nat) => ((t : F) * dt, column MSD nsets t)).flatMap (fun r => rowCells r.1 r.2 ++ [.nl]),
        b ++ ((List.range n).map fun (t : Nat) => ((t : F) * dt, column ISF (4 * nsets) t)).flatMap (fun r => rowCells r.1 r.2 ++ [.nl]),
        c ++ ((List.range n).map fun (t : Nat) => ((t : F) * dt, column NGP nsets t)).flatMap (fun r => rowCells r.1 r.2 ++ [.nl])) := by
  induction n with
  | zero => simp [pure_eq_ok]
  | succ n ih =>
    rw [List.range_succ, List.foldlM_append, ih (by omega), ok_bind, List.foldlM_cons]
    simp only [timeCells, sets_eq hz (show n < T by omega) nsets le_rfl, ok_bind, pure_eq_ok, List.foldlM_nil, List.map_append, List.flatMap_append,
      List.map_cons, List.map_nil, List.flatMap_cons, List.flatMap_nil, rowCells, List.append_assoc, List.cons_append, List.nil_append, List.append_nil]

theorem column_get [Inhabited F] {M : List (List F)} {T t : Nat} (hT : ∀ l ∈ M, l.length = T) (ht : t < T) :
    (column M M.length t).map some = M.map fun l => l[t]? := by
  refine List.ext_getElem (by simp [column]) fun s h1 h2 => ?_
  have hs : s < M.length := by simpa using h2
  have hl : t < M[s].length := by rw [hT _ (List.getElem_mem hs)]; exact ht
  simp [column, hs, hl]

/-- C231. The three files of `exportDynamics` are written when there is a name for each set. Read as tables they have, for each lag but the first one and
in order, a row with the time and the value of each set at this lag; the file `.isf` has the four values of each set. -/
theorem C231_rows_partial [Mul F] [NatCast F] [Inhabited F] (dt : F) {names : List String} {nsets T : Nat} {MSD ISF NGP : List (List F)}
    (hn : 0 < nsets) (hz : Sized names nsets T MSD ISF NGP) :
    ∃ msd isf ngp, exportDynamics dt names nsets MSD ISF NGP = .ok (msd, isf, ngp) ∧
      ∀ p ∈ [(msd, MSD), (isf, ISF), (ngp, NGP)], ∀ t, t + 1 < T → ∃ vs, (readTable p.1)[t]? = some (((t + 1 : Nat) : F) * dt :: vs) ∧
        vs.map some = p.2.map fun l => l[t + 1]? := by
  obtain ⟨a, b, c, hh, ha, hb, hc⟩ := heads_eq (F := F) names nsets hz.names
  have h0 : 0 < MSD.length := by rw [hz.msd]; exact hn
  have hr : ∀ (M : List (List F)) (k : Nat) (hd : List (Cell F)), M.length = k → (∀ l ∈ M, l.length = T) → Cell.nl ∉ hd → ∀ t, t + 1 < T →
      ∃ vs, (readTable ((.text "#t" :: hd) ++ ((List.range T).map fun (t : Nat) => ((t : F) * dt, column M k t)).flatMap fun r => rowCells r.1 r.2 ++ [.nl]))[t]? =
        some (((t + 1 : Nat) : F) * dt :: vs) ∧ vs.map some = M.map fun l => l[t + 1]? := by
    intro M k hd hk hT hnl t ht
    refine ⟨column M k (t + 1), ?_, by rw [← hk]; exact column_get hT ht⟩
    rw [read_eq _ _ hnl]
    simp [List.getElem?_tail, List.getElem?_range ht]
  have he : exportDynamics dt names nsets MSD ISF NGP =
      (List.range T).foldlM (timeCells dt nsets MSD ISF NGP) (.text "#t" :: a, .text "#t" :: b, .text "#t" :: c) := by
    rw [exportDynamics, hh, ok_bind, getR_of_lt h0, ok_bind, hz.msdT _ (List.getElem_mem h0)]
  rw [times_eq dt hz T le_rfl] at he
  refine ⟨_, _, _, he, ?_⟩
  · intro p hp t ht
    simp only [List.mem_cons, List.not_mem_nil, or_false] at hp
    rcases hp with rfl | rfl | rfl
    · exact hr MSD nsets a hz.msd hz.msdT ha t ht
    · exact hr ISF (4 * nsets) b hz.isf hz.isfT hb t ht
    · exact hr NGP nsets c hz.ngp hz.ngpT hc t ht

/-- C231, the part that is false. There is no end of line between the heads and the first row: the three files have a row less than there are lags, and no
row for the lag 0. -/
theorem C231_first_counterexample [Mul F] [NatCast F] [Inhabited F] (dt : F) {names : List String} {nsets T : Nat} {MSD ISF NGP : List (List F)}
    (hn : 0 < nsets) (hz : Sized names nsets (T + 1) MSD ISF NGP) :
    ∃ msd isf ngp, exportDynamics dt names nsets MSD ISF NGP = .ok (msd, isf, ngp) ∧ (readTable msd).length = T ∧ (readTable isf).length = T ∧
      (readTable ngp).length = T := by
  obtain ⟨a, b, c, hh, ha, hb, hc⟩ := heads_eq (F := F) names nsets hz.names
  have h0 : 0 < MSD.length := by rw [hz.msd]; exact hn
  have he : exportDynamics dt names nsets MSD ISF NGP =
      (List.range (T + 1)).foldlM (timeCells dt nsets MSD ISF NGP) (.text "#t" :: a, .text "#t" :: b, .text "#t" :: c) := by
    rw [exportDynamics, hh, ok_bind, getR_of_lt h0, ok_bind, hz.msdT _ (List.getElem_mem h0)]
  rw [times_eq dt hz (T + 1) le_rfl] at he
  refine ⟨_, _, _, he, ?_, ?_, ?_⟩
  · rw [read_eq _ _ ha]; simp
  · rw [read_eq _ _ hb]; simp
  · rw [read_eq _ _ hc]; simp

/-- The texts of a file. -/
def texts (f : List (Cell F)) : List String := f.filterMap fun c => match c with
  | .text s => some s
  | _ => none

theorem texts_append (a b : List (Cell F)) : texts (a ++ b) = texts a ++ texts b := List.filterMap_append

theorem texts_rows (rows : List (F × List F)) : texts (rows.flatMap fun r => rowCells r.1 r.2 ++ [.nl]) = [] := by
  have h : ∀ l : List F, texts (l.flatMap fun v => [Cell.tab, Cell.num v]) = [] := by
    intro l
    induction l with
    | nil => rfl
    | cons a l ih => rw [List.flatMap_cons, texts_append, ih]; rfl
  induction rows with
  | nil => rfl
  | cons r rows ih =>
    rw [List.flatMap_cons, texts_append, texts_append, ih]
    have : texts (rowCells r.1 r.2) = [] := by
      have := h r.2
      simpa [rowCells, texts] using this
    rw [this]
    rfl

theorem heads_texts (names : List String) (n : Nat) (h : n ≤ names.length) {a b c : List (Cell F)} (hh : heads names n = .ok (a, b, c)) :
    texts a = "#t" :: names.take n ∧ texts c = "#t" :: names.take n ∧
      texts b = "#t" :: (names.take n).flatMap fun s => [s, "_", "x", s, "_", "y", s, "_", "z", s, "_av"] := by
  induction n generalizing a b c with
  | zero =>
    simp only [heads, List.range_zero, List.foldlM_nil, pure_eq_ok, Except.ok.injEq, Prod.mk.injEq] at hh
    obtain ⟨rfl, rfl, rfl⟩ := hh
    exact ⟨rfl, rfl, rfl⟩
  | succ n ih =>
    obtain ⟨a', b', c', hr, _⟩ := heads_eq (F := F) names n (by omega)
    obtain ⟨i1, i2, i3⟩ := ih (by omega) hr
    rw [heads] at hr hh
    rw [List.range_succ, List.foldlM_append, hr, ok_bind, List.foldlM_cons, getR_of_lt (show n < names.length by omega), ok_bind, pure_eq_ok,
      ok_bind, List.foldlM_nil, pure_eq_ok] at hh
    simp only [Except.ok.injEq, Prod.mk.injEq] at hh
    obtain ⟨rfl, rfl, rfl⟩ := hh
    rw [texts_append, texts_append, texts_append, texts_append, i1, i2, i3, List.take_succ, List.getElem?_eq_getElem (show n < names.length by omega)]
    refine ⟨rfl, rfl, ?_⟩
    rw [List.flatMap_append, List.append_assoc]
    rfl

/-- C231. The texts of the files are the names of the columns: those of the sets, once each in `.msd` and `.ngp`, with the three axes and the average in
`.isf`. -/
theorem C231_names [Mul F] [NatCast F] [Inhabited F] (dt : F) {names : List String} {nsets T : Nat} {MSD ISF NGP : List (List F)}
    (hn : 0 < nsets) (hz : Sized names nsets T MSD ISF NGP) :
    ∃ msd isf ngp, exportDynamics dt names nsets MSD ISF NGP = .ok (msd, isf, ngp) ∧ texts msd = "#t" :: names.take nsets ∧
      texts ngp = "#t" :: names.take nsets ∧
      texts isf = "#t" :: (names.take nsets).flatMap fun s => [s, "_", "x", s, "_", "y", s, "_", "z", s, "_av"] := by
  obtain ⟨a, b, c, hh, _⟩ := heads_eq (F := F) names nsets hz.names
  have h0 : 0 < MSD.length := by rw [hz.msd]; exact hn
  have he : exportDynamics dt names nsets MSD ISF NGP =
      (List.range T).foldlM (timeCells dt nsets MSD ISF NGP) (.text "#t" :: a, .text "#t" :: b, .text "#t" :: c) := by
    rw [exportDynamics, hh, ok_bind, getR_of_lt h0, ok_bind, hz.msdT _ (List.getElem_mem h0)]
  rw [times_eq dt hz T le_rfl] at he
  obtain ⟨t1, t2, t3⟩ := heads_texts names nsets hz.names hh
  refine ⟨_, _, _, he, ?_, ?_, ?_⟩
  · rw [texts_append, texts_rows, List.append_nil, t1]
  · rw [texts_append, texts_rows, List.append_nil, t2]
  · rw [texts_append, texts_rows, List.append_nil, t3]

/-- C231, the part that is false. With less names than sets, names are read out of their array. -/
theorem C231_names_counterexample [Mul F] [NatCast F] (dt : F) (names : List String) (nsets : Nat) (MSD ISF NGP : List (List F)) (h : names.length < nsets) :
    exportDynamics dt names nsets MSD ISF NGP = .error .ub := by
  obtain ⟨a, b, c, hh, _⟩ := heads_eq (F := F) names names.length le_rfl
  have : heads (F := F) names nsets = .error .ub := by
    obtain ⟨k, rfl⟩ := Nat.exists_eq_add_of_lt h
    rw [heads] at hh ⊢
    rw [show names.length + k + 1 = names.length + (k + 1) by omega, List.range_add, List.foldlM_append, hh, ok_bind, List.range_succ_eq_map, List.map_cons,
      List.foldlM_cons, getR_eq_ub (by omega), error_bind, error_bind]
  rw [exportDynamics, this, error_bind]

/-- C231, the part that is false. Without any set, the first one is read. -/
theorem C231_empty_counterexample [Mul F] [NatCast F] (dt : F) (names : List String) :
    exportDynamics dt names 0 ([] : List (List F)) [] [] = .error .ub := rfl

example : Sized ["a", "b"] 2 2 [[0, 1], [0, 2]] [[1, 1], [1, 1], [1, 1], [1, 1], [1, 0], [1, 0], [1, 0], [1, (0 : ℚ)]] [[0, 1], [0, 1]] := by
  refine ⟨by decide, rfl, rfl, rfl, by simp, by simp, by simp⟩

end DynExport
end Colloids
