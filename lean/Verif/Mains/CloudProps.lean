import Mathlib.Data.Rat.Defs
import Verif.Dat.Props
import Verif.Mains.CloudModel

/-! # Proofs about the files `.cloud`: C245 -/

namespace Colloids
namespace Mains
namespace Cloud

variable {G V : Type} [Field G]

/-- The numbers written for a particle. -/
def values (inv : V → Nat → G × G) (t : V) : List G :=
  [(inv t 4).1, (inv t 6).1, (inv t 8).1, (inv t 10).1, (inv t 4).2, (inv t 6).2, (inv t 8).2, (inv t 10).2]

omit [Field G] in
theorem numbers_rows (inv : V → Nat → G × G) (ts : List V) :
    (ts.map (cloudExporter inv)).flatMap Line.numbers = (ts.flatMap (values inv)).map Dat.Num.dbl := by
  induction ts with
  | nil => rfl
  | cons t ts ih =>
    rw [List.map_cons, List.flatMap_cons, ih, List.flatMap_cons, List.map_append]
    rfl

omit [Field G] in
theorem values_length (inv : V → Nat → G × G) (ts : List V) : (ts.flatMap (values inv)).length = 8 * ts.length := by
  induction ts with
  | nil => rfl
  | cons t ts ih =>
    rw [List.flatMap_cons, List.length_append, ih, List.length_cons]
    show 8 + _ = _
    omega

omit [Field G] in
theorem values_get (inv : V → Nat → G × G) (ts : List V) (rest : List G) (p : Nat) (t : V) (ht : ts[p]? = some t) (j : Nat) (hj : j < 8) :
    (ts.flatMap (values inv) ++ rest)[8 * p + j]? = (values inv t)[j]? := by
  induction ts generalizing p with
  | nil => cases ht
  | cons a ts ih =>
    rw [List.flatMap_cons, List.append_assoc]
    have h8 : (values inv a).length = 8 := rfl
    rcases p with _ | p
    · rw [List.getElem?_cons_zero, Option.some.injEq] at ht
      subst ht
      rw [Nat.mul_zero, Nat.zero_add, List.getElem?_append_left (by omega)]
    · rw [List.getElem?_append_right (by omega), h8, show 8 * (p + 1) + j - 8 = 8 * p + j by omega]
      exact ih p (by simpa using ht)

theorem load_rows (inv : V → Nat → G × G) (n : Nat) (f : OFile G) (ts : List V) (h : f.lines.tail = ts.map (cloudExporter inv)) (hn : ts.length ≤ n) :
    loadCloud n f = .ok (ts.flatMap (values inv) ++ List.replicate (8 * n - 8 * ts.length) 0) := by
  rw [loadCloud, h, numbers_rows, (Dat.C40_loadBoo n _).1 (by rw [List.length_map, values_length]; omega), List.length_map, values_length, List.map_map]
  congr 2
  rw [← List.map_id (ts.flatMap (values inv)), List.map_map]
  rfl

/-- The table of `loadBoo` has the invariants of the tensors, one particle after the other: q then w for l = 4, 6, 8, 10. -/
def HasInvariants (inv : V → Nat → G × G) (qw : List G) (ts : List V) : Prop :=
  ∀ p t, ts[p]? = some t → ∀ k, k < 4 → qw[8 * p + k]? = some (inv t (4 + 2 * k)).1 ∧ qw[8 * p + (4 + k)]? = some (inv t (4 + 2 * k)).2

omit [Field G] in
theorem hasInvariants (inv : V → Nat → G × G) (ts : List V) (rest : List G) : HasInvariants inv (ts.flatMap (values inv) ++ rest) ts := by
  intro p t ht k hk
  rw [values_get inv ts rest p t ht k (by omega), values_get inv ts rest p t ht (4 + k) (by omega)]
  match k, hk with
  | 0, _ => exact ⟨rfl, rfl⟩
  | 1, _ => exact ⟨rfl, rfl⟩
  | 2, _ => exact ⟨rfl, rfl⟩
  | 3, _ => exact ⟨rfl, rfl⟩

/-- C245. The files `.cloud` and `_space.cloud` of `boo`, and the four files of `boo_flip`, are read back by `loadBoo` as the invariants of the particles. -/
theorem C245_read_partial (inv : V → Nat → G × G) (qlm cg sf first second : List V) (n : Nat) (h1 : qlm.length = n) (h2 : cg.length = n)
    (h3 : first.length = n) (h4 : second.length = n) :
    (∃ qw, loadCloud n (booFiles inv qlm cg sf).1 = .ok qw ∧ qw.length = 8 * n ∧ HasInvariants inv qw qlm) ∧
    (∃ qw, loadCloud n (booFiles inv qlm cg sf).2.1 = .ok qw ∧ qw.length = 8 * n ∧ HasInvariants inv qw cg) ∧
    ∃ f1 f2 f3 f4, flipFiles inv qlm cg first second = [f1, f2, f3, f4] ∧
      (∃ qw, loadCloud n f1 = .ok qw ∧ qw.length = 8 * n ∧ HasInvariants inv qw qlm) ∧ (∃ qw, loadCloud n f2 = .ok qw ∧ qw.length = 8 * n ∧ HasInvariants inv qw cg) ∧
      (∃ qw, loadCloud n f3 = .ok qw ∧ qw.length = 8 * n ∧ HasInvariants inv qw first) ∧
      ∃ qw, loadCloud n f4 = .ok qw ∧ qw.length = 8 * n ∧ HasInvariants inv qw second := by
  have key : ∀ (f : OFile G) (ts : List V), f.lines.tail = ts.map (cloudExporter inv) → ts.length = n →
      ∃ qw, loadCloud n f = .ok qw ∧ qw.length = 8 * n ∧ HasInvariants inv qw ts := by
    intro f ts h hn
    refine ⟨_, load_rows inv n f ts h (by omega), ?_, hasInvariants inv ts _⟩
    rw [List.length_append, values_length, List.length_replicate]
    omega
  exact ⟨key _ _ rfl h1, key _ _ rfl h2, _, _, _, _, rfl, key _ _ rfl h1, key _ _ rfl h2, key _ _ rfl h3, key _ _ rfl h4⟩

/-- C245, the part that is false. The head of `_surf.cloud` is written to a file that is already closed: `loadBoo` skips the first particle, gives to each particle
the invariants of the next one, and zeros to the last one. -/
theorem C245_surf_counterexample (inv : V → Nat → G × G) (qlm cg : List V) (t : V) (sf : List V) :
    ∃ qw, loadCloud (sf.length + 1) (booFiles inv qlm cg (t :: sf)).2.2 = .ok qw ∧ HasInvariants inv qw sf ∧
      ∀ j, j < 8 → qw[8 * sf.length + j]? = some 0 := by
  refine ⟨_, load_rows inv _ _ sf rfl (by omega), hasInvariants inv sf _, ?_⟩
  intro j hj
  rw [List.getElem?_append_right (by rw [values_length]; omega), values_length, Nat.add_sub_cancel_left, List.getElem?_replicate_of_lt (by omega)]

omit [Field G] in
/-- C245, the part that is false. The head of the files `_flip` and `_flip2` names four columns, the lines have eight. -/
theorem C245_head_counterexample (inv : V → Nat → G × G) (qlm cg : List V) (t t' : V) (first second : List V) :
    ∃ f ∈ flipFiles inv qlm cg (t :: first) (t' :: second), ∃ names row rest, f.lines = .head names :: .row row :: rest ∧ names.length = 4 ∧ row.length = 8 :=
  ⟨_, List.mem_cons_of_mem _ (List.mem_cons_of_mem _ List.mem_cons_self), _, _, _, rfl, rfl, rfl⟩

example : loadCloud (G := ℚ) 2 (booFiles (fun (t : ℚ) (l : Nat) => (t, t + l)) [] [] [1, 2]).2.2 =
    .ok [2, 2, 2, 2, 6, 8, 10, 12, 0, 0, 0, 0, 0, 0, 0, 0] := by
  decide +kernel

end Cloud
end Mains
end Colloids
