import Verif.Files.Props
import Verif.Tracker.NamesProps
import Verif.Mains.BooNamesModel

/-! # Proofs about the names of the files of `boo`: C246 -/

namespace Colloids
namespace Mains
namespace BooNames

theorem inputPath_eq (a e : List Char) (he : '.' ∉ e) : inputPath (a ++ '.' :: e) = a := by
  have := Files.replaceExt_eq a [] e [] he
  simpa [inputPath] using this

theorem token_split (h r e : List Char) (hr : ¬ token <:+: r ++ '.' :: e) :
    Files.rfind (h ++ token ++ (r ++ '.' :: e)) token = some h.length ∧ Files.rfind (h ++ token ++ r) token = some h.length := by
  refine ⟨Tracker.rfind_underscore 't' (by decide) h _ hr, Tracker.rfind_underscore 't' (by decide) h r fun h1 => hr ?_⟩
  exact h1.trans ⟨[], '.' :: e, by simp⟩

theorem postfixed_eq (h r e post ext : List Char) (hr : ¬ token <:+: r ++ '.' :: e) (he : '.' ∉ e) :
    postfixed (h ++ token ++ r ++ '.' :: e) post ext = h ++ post ++ token ++ r ++ ext := by
  have h1 : h ++ token ++ r ++ '.' :: e = h ++ token ++ (r ++ '.' :: e) := by simp only [List.append_assoc]
  have hh : head (h ++ token ++ r ++ '.' :: e) = h := by
    rw [h1, head, (token_split h r e hr).1]
    simp only [List.append_assoc, List.take_left]
  have hi : inputPath (h ++ token ++ r ++ '.' :: e) = h ++ token ++ r := inputPath_eq _ e he
  rw [postfixed, neck, hh, hi]
  have h2 : h.length ≤ (h ++ token ++ r).length := by simp only [List.length_append]; omega
  have h3 : (h ++ token ++ r).length - h.length = (token ++ r).length := by simp only [List.length_append]; omega
  simp only [h2, if_true, h3]
  have h4 : (h ++ token ++ r ++ '.' :: e).drop h.length = (token ++ r) ++ '.' :: e := by simp only [List.append_assoc, List.drop_left]
  rw [h4, List.take_left]
  simp only [List.append_assoc]

/-- C246. When the name of the file itself, and not only the path to it, has a `_t` (the last one), and an extension, the files of `boo` with a postfix are beside it:
the postfix is just before this `_t` and only the extension changes. They are the ones that `dat2vtk` loads. -/
theorem C246_beside_partial (dir pre num e post ext : List Char) (h1 : '/' ∉ pre) (h2 : '/' ∉ num) (hr : ¬ token <:+: num ++ '.' :: e) (he : '.' ∉ e)
    (hp : '/' ∉ post) (hx : '/' ∉ ext) :
    ∃ name, postfixed (dir ++ pre ++ token ++ num ++ '.' :: e) post ext = dir ++ name ∧ '/' ∉ name ∧ name = pre ++ post ++ token ++ num ++ ext ∧
      wanted (dir ++ pre ++ token ++ num ++ '.' :: e) post ext = .ok (dir ++ name) := by
  refine ⟨pre ++ post ++ token ++ num ++ ext, ?_, ?_, rfl, ?_⟩
  · rw [postfixed_eq (dir ++ pre) num e post ext hr he]
    simp only [List.append_assoc]
  · simp only [List.mem_append, h1, h2, hp, hx, token]
    decide
  · have hi : inputPath (dir ++ pre ++ token ++ num ++ '.' :: e) = dir ++ pre ++ token ++ num := inputPath_eq _ e he
    rw [wanted, hi, (token_split (dir ++ pre) num e hr).2]
    simp only [List.append_assoc]
    rw [← List.append_assoc dir pre, List.take_left, List.drop_left]
    simp only [List.append_assoc]

/-- C246, the part that is false. When the only `_t` is in the name of a directory, the files with a postfix are not in the directory of the positions, but in one
whose name has the postfix, that may not exist. -/
theorem C246_directory_counterexample (a b c e post ext : List Char) (hr : ¬ token <:+: b ++ '/' :: c ++ '.' :: e) (he : '.' ∉ e) (hp : post ≠ []) :
    ∃ dir dir', postfixed (dir ++ '/' :: c ++ '.' :: e) post ext = dir' ++ '/' :: c ++ ext ∧ dir = a ++ token ++ b ∧ dir' = a ++ post ++ token ++ b ∧ dir' ≠ dir := by
  refine ⟨_, _, ?_, rfl, rfl, ?_⟩
  · have h1 : a ++ token ++ b ++ '/' :: c ++ '.' :: e = a ++ token ++ (b ++ '/' :: c) ++ '.' :: e := by simp only [List.append_assoc]
    rw [h1, postfixed_eq a (b ++ '/' :: c) e post ext hr he]
    simp only [List.append_assoc]
  · intro h
    have := congrArg List.length h
    simp only [List.length_append] at this
    have h0 : 0 < post.length := List.length_pos_iff.2 hp
    omega

/-- C246, the part that is false. Without `_t` in the name, `boo` puts the postfix after the extension, and `dat2vtk` throws an exception. -/
theorem C246_token_counterexample (a e post ext : List Char) (h : ¬ token <:+: a ++ '.' :: e) (he : '.' ∉ e) :
    postfixed (a ++ '.' :: e) post ext = a ++ '.' :: e ++ post ++ ext ∧ wanted (a ++ '.' :: e) post ext = .error .outOfRange := by
  have h1 : Files.rfind (a ++ '.' :: e) token = none := (Files.rfind_none _ _).2 h
  have hi : inputPath (a ++ '.' :: e) = a := inputPath_eq a e he
  constructor
  · rw [postfixed, neck, head, h1, hi]
    have h2 : ¬ (a ++ '.' :: e).length ≤ a.length := by simp
    simp only [h2, if_false, List.drop_length, List.append_nil]
  · have h2 : Files.rfind a token = none := (Files.rfind_none _ _).2 fun h3 => h (h3.trans ⟨[], '.' :: e, by simp⟩)
    rw [wanted, hi, h2]

example : postfixed "d_1/s_t05.dat".toList "_space".toList ".qlm".toList = "d_1/s_space_t05.qlm".toList ∧
    postfixed "my_test/s.dat".toList "_space".toList ".qlm".toList = "my_space_test/s.qlm".toList ∧
    postfixed "s.dat".toList "_space".toList ".qlm".toList = "s.dat_space.qlm".toList := by decide +kernel

example : ¬ token <:+: "05".toList ++ '.' :: "dat".toList ∧ ¬ token <:+: "s".toList ++ '.' :: "dat".toList := by decide

end BooNames
end Mains
end Colloids
