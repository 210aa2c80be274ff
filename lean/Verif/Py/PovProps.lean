import Verif.CommonLemmas
import Verif.Py.PovModel

/-! # C257: files for povray -/

namespace Colloids
namespace Py
namespace Pov

/-- What a scene is for its reader: lines, and blocks with a name. -/
inductive Node
  | line (s : List Char)
  | block (name : List Char) (body : List Node)

/-- A reader: the open blocks, innermost first, with their name and what precedes them, and the content of the current block. -/
structure Reader where
  stack : List (List Char × List Node)
  cur : List Node

/-- The reader gets a line without its indentation of `k` spaces. It accepts only an indentation of two spaces by open block. -/
def Reader.token (r : Reader) (k : Nat) (s : List Char) : Option Reader :=
  if s = ['}'] then
    match r.stack with
    | (name, before) :: st => if k = 2 * st.length then some ⟨st, before ++ [.block name r.cur]⟩ else none
    | [] => none
  else if k ≠ 2 * r.stack.length then none
  else if s = ['{'] then
    match r.cur.getLast? with
    | some (.line name) => some ⟨(name, r.cur.dropLast) :: r.stack, []⟩
    | _ => none
  else some ⟨r.stack, r.cur ++ [.line s]⟩

/-- A line; blank lines are skipped. -/
def Reader.step (r : Reader) (line : List Char) : Option Reader :=
  let s := line.dropWhile (· = ' ')
  if s = [] then some r else r.token (line.length - s.length) s

/-- The content of a file, if each line has the right indentation and all the blocks are closed. -/
def read (lines : List (List Char)) : Option (List Node) := do
  let r ← lines.foldlM Reader.step ⟨[], []⟩
  if r.stack = [] then some r.cur else none

/-- Texts that are not mistaken for something else. -/
def Plain (s : List Char) : Prop := s ≠ [] ∧ s.head? ≠ some ' ' ∧ s ≠ ['{'] ∧ s ≠ ['}']

/-- A value that can be written. -/
def Val.Fine : Val → Prop
  | .text s => Plain s
  | .vec _ => True

/-- The tuples of keywords have not a single element. -/
def Val.NotSingle : Val → Prop
  | .vec [_] => False
  | _ => True

mutual
/-- Items of plain texts, without tuples of one element. -/
def Item.Fine : Item → Prop
  | .text s => Plain s
  | .block name args opts kwargs => Plain name ∧ (∀ a ∈ args, a.Fine) ∧ FineList opts ∧ ∀ kv ∈ kwargs, Plain kv.1 ∧ kv.2.NotSingle

/-- The same for all the items of a list. -/
def FineList : List Item → Prop
  | [] => True
  | o :: l => o.Fine ∧ FineList l
end

/-- The text of a value: vectors are between angle brackets, with commas. -/
def valText : Val → List Char
  | .text s => s
  | .vec l => '<' :: (List.intercalate ", ".toList l ++ ['>'])

/-- The text of a keyword and of its value. -/
def kwLine (kv : List Char × Val) : Node := .line (kv.1 ++ ' ' :: valText kv.2)

/-- The line of the arguments, if any. -/
def argLines (args : List Val) : List Node := if args = [] then [] else [.line (List.intercalate ", ".toList (args.map valText))]

mutual
/-- The content of an item: arguments, options and keywords. -/
def Item.node : Item → Node
  | .text s => .line s
  | .block name args opts kwargs => .block name (argLines args ++ nodes opts ++ kwargs.map kwLine)

/-- The content of the items of a list. -/
def nodes : List Item → List Node
  | [] => []
  | o :: l => o.node :: nodes l
end

/-- An item of a file: the texts are names of files to include. -/
def topNode : Item → Node
  | .text s => .line ("#include \"".toList ++ s ++ ['"'])
  | .block name args opts kwargs => (Item.block name args opts kwargs).node

/-- The names of files are any text. -/
def topFine : Item → Prop
  | .text _ => True
  | .block name args opts kwargs => (Item.block name args opts kwargs).Fine

theorem join_eq (l : List (List Char)) : join l = List.intercalate ", ".toList l := by
  induction l with
  | nil => rfl
  | cons a l ih =>
    cases l with
    | nil => simp [join, List.intercalate]
    | cons b l =>
      rw [join, ih]
      simp [List.intercalate, List.intersperse]

theorem argText_eq : argText = valText := by
  funext v
  cases v with
  | text s => rfl
  | vec l =>
    rw [argText, vecText, join_eq, valText]
    rfl

theorem dropWhile_spaces (k : Nat) (s : List Char) (h : s.head? ≠ some ' ') : (List.replicate k ' ' ++ s).dropWhile (· = ' ') = s := by
  induction k with
  | zero =>
    cases s with
    | nil => rfl
    | cons c s =>
      rw [List.replicate_zero, List.nil_append, List.dropWhile_cons, if_neg]
      intro hc
      apply h
      rw [List.head?_cons, of_decide_eq_true hc]
  | succ k ih =>
    rw [List.replicate_succ, List.cons_append, List.dropWhile_cons, if_pos (by decide), ih]

theorem step_spaces (r : Reader) (k : Nat) (s : List Char) (h0 : s ≠ []) (h : s.head? ≠ some ' ') :
    r.step (List.replicate k ' ' ++ s) = r.token k s := by
  rw [Reader.step]
  simp only [dropWhile_spaces k s h]
  rw [if_neg h0, List.length_append, List.length_replicate, Nat.add_sub_cancel]

/-- `r` is what the reader has got from the file, at the level of indentation of the file. -/
def Got (f : File) (r : Reader) : Prop := f.lines.foldlM Reader.step ⟨[], []⟩ = some r ∧ r.stack.length = f.indent

theorem foldlM_snoc (L : List (List Char)) (x : List Char) (r0 r : Reader) (h : L.foldlM Reader.step r0 = some r) :
    (L ++ [x]).foldlM Reader.step r0 = r.step x := by
  rw [List.foldlM_append, h]
  change ([x].foldlM Reader.step r) = _
  rw [List.foldlM_cons]
  cases h : r.step x with
  | none => rfl
  | some r => rfl

theorem got_line {f : File} {r : Reader} (h : Got f r) {s : List Char} (hs : Plain s) : Got (f.writeln s) ⟨r.stack, r.cur ++ [.line s]⟩ := by
  refine ⟨?_, h.2⟩
  rw [File.writeln, foldlM_snoc _ _ _ _ h.1, step_spaces _ _ _ hs.1 hs.2.1, Reader.token, if_neg hs.2.2.2, if_neg (by rw [h.2]; simp), if_neg hs.2.2.1]

theorem got_begin {f : File} {r : Reader} (name : List Char) (before : List Node) (hr : r.cur = before ++ [.line name]) (h : Got f r) :
    Got f.blockBegin ⟨(name, before) :: r.stack, []⟩ := by
  refine ⟨?_, by rw [File.blockBegin, List.length_cons, h.2]⟩
  rw [File.blockBegin, File.writeln]
  simp only
  rw [foldlM_snoc _ _ _ _ h.1, step_spaces _ _ _ (by simp) (by decide), Reader.token, if_neg (by decide), if_neg (by rw [h.2]; simp), if_pos rfl, hr]
  simp

theorem got_blank {f : File} {r : Reader} (h : Got f r) (h0 : f.indent = 0) : Got (f.writeln []) r := by
  refine ⟨?_, h.2⟩
  rw [File.writeln, foldlM_snoc _ _ _ _ h.1, h0, Reader.step]
  rfl

theorem got_end {f : File} {r : Reader} (name : List Char) (before : List Node) (st : List (List Char × List Node)) (hr : r.stack = (name, before) :: st)
    (h : Got f r) : ∃ f', f.blockEnd = .ok f' ∧ f'.indent + 1 = f.indent ∧ Got f' ⟨st, before ++ [.block name r.cur]⟩ := by
  have hi : st.length + 1 = f.indent := by rw [← h.2, hr, List.length_cons]
  have hg : Got (File.writeln ⟨f.indent - 1, f.lines⟩ ['}']) ⟨st, before ++ [.block name r.cur]⟩ := by
    refine ⟨?_, by rw [File.writeln]; simp only; omega⟩
    rw [File.writeln]
    simp only
    rw [foldlM_snoc _ _ _ _ h.1, step_spaces _ _ _ (by simp) (by decide), Reader.token, if_pos rfl, hr]
    simp only
    rw [if_pos (by omega)]
  refine ⟨_, by rw [File.blockEnd, if_neg (by omega)], ?_, ?_⟩
  · rw [File.blank]
    split <;> (rw [File.writeln]; try rw [File.writeln]) <;> simp only <;> omega
  · rw [File.blank]
    split
    · exact got_blank hg (by assumption)
    · exact hg

theorem plain_append {s t : List Char} (hs : Plain s) (ht : t ≠ []) : Plain (s ++ t) := by
  obtain ⟨h1, h2, -, -⟩ := hs
  cases s with
  | nil => exact absurd rfl h1
  | cons c s =>
    cases t with
    | nil => exact absurd rfl ht
    | cons d t =>
      refine ⟨by simp, by simpa using h2, ?_, ?_⟩ <;> (intro h; have := congrArg List.length h; simp at this)

theorem plain_vec (l : List (List Char)) : Plain (vecText l) := by
  rw [vecText]
  refine ⟨by simp, by simp, ?_, ?_⟩ <;> (intro h; simp at h)

theorem plain_arg {a : Val} (h : a.Fine) : Plain (argText a) := by
  cases a with
  | text s => exact h
  | vec l => exact plain_vec l

theorem plain_join (l : List (List Char)) (hl : l ≠ []) (h : ∀ s ∈ l, Plain s) : Plain (join l) := by
  cases l with
  | nil => exact absurd rfl hl
  | cons a l =>
    have ha := h a List.mem_cons_self
    cases l with
    | nil => exact ha
    | cons b l =>
      rw [join, List.append_assoc]
      exact plain_append ha (by simp)

theorem got_args {f : File} {r : Reader} (h : Got f r) (args : List Val) (ha : ∀ a ∈ args, a.Fine) :
    Got (writeArgs f args) ⟨r.stack, r.cur ++ argLines args⟩ := by
  rw [writeArgs, argLines, ← argText_eq, ← join_eq]
  split
  · rw [List.append_nil]
    exact h
  · rename_i hne
    refine got_line h (plain_join _ (by simpa using hne) ?_)
    intro s hs
    obtain ⟨a, ha', rfl⟩ := List.mem_map.1 hs
    exact plain_arg (ha a ha')

theorem kwText_fine {v : Val} (h : v.NotSingle) : kwText v = .ok (argText v) := by
  unfold Val.NotSingle at h
  unfold kwText argText
  cases v with
  | text s => rfl
  | vec l =>
    cases l with
    | nil => rfl
    | cons a l =>
      cases l with
      | nil => exact absurd h (by simp)
      | cons b l => rfl

theorem got_kwargs (kwargs : List (List Char × Val)) (hk : ∀ kv ∈ kwargs, Plain kv.1 ∧ kv.2.NotSingle) {f : File} {r : Reader} (h : Got f r) :
    ∃ f', kwargs.foldlM writeKw f = .ok f' ∧ f'.indent = f.indent ∧ Got f' ⟨r.stack, r.cur ++ kwargs.map kwLine⟩ := by
  induction kwargs generalizing f r with
  | nil => exact ⟨f, rfl, rfl, by rw [List.map_nil, List.append_nil]; exact h⟩
  | cons kv l ih =>
    obtain ⟨h1, h2⟩ := hk kv List.mem_cons_self
    have hp : Plain (kv.1 ++ [' '] ++ argText kv.2) := by
      rw [List.append_assoc]
      exact plain_append h1 (by simp)
    obtain ⟨f', h3, h4, h5⟩ := ih (fun x hx => hk x (List.mem_cons_of_mem _ hx)) (got_line h hp)
    refine ⟨f', ?_, h4, ?_⟩
    · rw [List.foldlM_cons, writeKw, kwText_fine h2]
      exact h3
    · rw [List.map_cons, kwLine, ← argText_eq]
      simpa using h5

mutual
theorem got_item (o : Item) (ho : o.Fine) {f : File} {r : Reader} (h : Got f r) :
    ∃ f', writeItem o f = .ok f' ∧ f'.indent = f.indent ∧ Got f' ⟨r.stack, r.cur ++ [o.node]⟩ := by
  cases o with
  | text s =>
    rw [Item.Fine] at ho
    refine ⟨f.writeln s, by rw [writeItem], rfl, ?_⟩
    rw [Item.node]
    exact got_line h ho
  | block name args opts kwargs =>
    rw [Item.Fine] at ho
    obtain ⟨h1, h2, h3, h4⟩ := ho
    have g1 := got_begin name r.cur rfl (got_line h h1)
    have g2 := got_args g1 args h2
    obtain ⟨f3, e3, i3, g3⟩ := got_opts opts h3 g2
    obtain ⟨f4, e4, i4, g4⟩ := got_kwargs kwargs h4 g3
    obtain ⟨f5, e5, i5, g5⟩ := got_end name r.cur r.stack rfl g4
    have hargs : (writeArgs (f.writeln name).blockBegin args).indent = f.indent + 1 := by
      rw [writeArgs]
      split <;> rfl
    refine ⟨f5, ?_, by omega, ?_⟩
    · rw [writeItem, e3, ok_bind, e4, ok_bind, e5]
    · rw [Item.node]
      simpa using g5

theorem got_opts (l : List Item) (hl : FineList l) {f : File} {r : Reader} (h : Got f r) :
    ∃ f', writeOpts l f = .ok f' ∧ f'.indent = f.indent ∧ Got f' ⟨r.stack, r.cur ++ nodes l⟩ := by
  cases l with
  | nil => exact ⟨f, by rw [writeOpts], rfl, by rw [nodes, List.append_nil]; exact h⟩
  | cons o l =>
    rw [FineList] at hl
    obtain ⟨f1, e1, i1, g1⟩ := got_item o hl.1 h
    obtain ⟨f2, e2, i2, g2⟩ := got_opts l hl.2 g1
    refine ⟨f2, ?_, by omega, ?_⟩
    · rw [writeOpts, e1, ok_bind, e2]
    · rw [nodes]
      simpa using g2
end

theorem got_top (o : Item) (ho : topFine o) {f : File} {r : Reader} (h : Got f r) (h0 : f.indent = 0) :
    ∃ f', writeTop f o = .ok f' ∧ f'.indent = 0 ∧ Got f' ⟨r.stack, r.cur ++ [topNode o]⟩ := by
  cases o with
  | text s =>
    refine ⟨f.incl s, rfl, h0, ?_⟩
    rw [File.incl, topNode]
    refine got_blank (got_line h ?_) h0
    rw [List.append_assoc]
    exact plain_append (by refine ⟨?_, ?_, ?_, ?_⟩ <;> decide) (by simp)
  | block name args opts kwargs =>
    obtain ⟨f', h1, h2, h3⟩ := got_item _ ho h
    exact ⟨f', h1, by omega, h3⟩

/-- C257. A file written from plain texts is read back as the same tree of items, each line with two spaces by open block and all the blocks closed. -/
theorem C257_read_partial (items : List Item) (h : ∀ o ∈ items, topFine o) : ∃ f, writeFile items = .ok f ∧ f.indent = 0 ∧ read f.lines = some (items.map topNode) := by
  have key : ∀ (f : File) (r : Reader), Got f r → f.indent = 0 →
      ∃ f', items.foldlM writeTop f = .ok f' ∧ f'.indent = 0 ∧ Got f' ⟨r.stack, r.cur ++ items.map topNode⟩ := by
    induction items with
    | nil => exact fun f r h h0 => ⟨f, rfl, h0, by rw [List.map_nil, List.append_nil]; exact h⟩
    | cons o l ih =>
      intro f r hf h0
      obtain ⟨f1, e1, i1, g1⟩ := got_top o (h o List.mem_cons_self) hf h0
      obtain ⟨f2, e2, i2, g2⟩ := ih (fun x hx => h x (List.mem_cons_of_mem _ hx)) f1 _ g1 i1
      refine ⟨f2, ?_, i2, by simpa using g2⟩
      rw [List.foldlM_cons, e1]
      exact e2
  obtain ⟨f, e, i, g⟩ := key ⟨0, []⟩ ⟨[], []⟩ ⟨rfl, rfl⟩ rfl
  refine ⟨f, e, i, ?_⟩
  rw [read, g.1]
  rfl

/-- C257, the part that is false. An item with a keyword that is a tuple of one number is a `TypeError`, whatever is before. -/
theorem C257_tuple_counterexample (f : File) (name : List Char) (args : List Val) (kwargs : List (List Char × Val)) (key x : List Char) (hk : (key, Val.vec [x]) ∈ kwargs) :
    writeItem (.block name args [] kwargs) f = .error .invalidArgument := by
  have hkw : ∀ (L : List (List Char × Val)) (g : File), (key, Val.vec [x]) ∈ L → L.foldlM writeKw g = .error .invalidArgument := by
    intro L
    induction L with
    | nil => exact fun g h => absurd h (by simp)
    | cons kv L ih =>
      intro g hmem
      rw [List.foldlM_cons]
      by_cases hs : ∃ t, kwText kv.2 = .ok t
      · obtain ⟨t, ht⟩ := hs
        rw [writeKw, ht]
        refine ih _ ?_
        rcases List.mem_cons.1 hmem with rfl | hm
        · exact absurd ht (by simp [kwText])
        · exact hm
      · have : kwText kv.2 = .error .invalidArgument := by
          obtain ⟨k, v⟩ := kv
          cases v with
          | text s => exact absurd ⟨s, rfl⟩ hs
          | vec l =>
            cases l with
            | nil => exact absurd ⟨_, rfl⟩ hs
            | cons a l =>
              cases l with
              | nil => rfl
              | cons b l => exact absurd ⟨_, rfl⟩ hs
        rw [writeKw, this]
        rfl
  rw [writeItem, writeOpts, ok_bind, hkw _ _ hk]
  rfl

/-- C257, the part that is false. What is appended to an item made without options is in all the items made without options; nothing is appended to the items of the
classes of povray (an error). -/
theorem C257_append_counterexample (d : List Item) (x : Item) :
    (∃ d', append d .default x = .ok d' ∧ ∀ other : Opts, other = .default → options d' other = options d other ++ [x]) ∧
      ∀ l, append d (.tuple l) x = .error .logicError :=
  ⟨⟨d ++ [x], rfl, fun other h => by rw [h]; rfl⟩, fun _ => rfl⟩

/-- A sphere with its texture. -/
example : ∀ o ∈ [Item.text "colors.inc".toList, .block "sphere".toList [.vec [['0'], ['1'], ['2']], .text ['2']]
    [.block "texture".toList [] [.block "pigment".toList [] [] [("color".toList, .text "Yellow".toList)]] []] []], topFine o := by
  simp [topFine, Item.Fine, FineList, Val.Fine, Val.NotSingle, Plain]

example : ("color".toList, Val.vec [['1']]) ∈ [("color".toList, Val.vec [['1']])] := List.mem_singleton.2 rfl

end Pov
end Py
end Colloids
