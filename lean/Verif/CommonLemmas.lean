import Verif.Common
import Mathlib.Order.Defs.LinearOrder
import Mathlib.Data.List.Nodup
import Mathlib.Data.List.Sort

/-! # Lemmas on checked access, `Except` folds and multimaps -/

namespace Colloids

theorem getR_ok {l : List α} {i : Nat} {a : α} : getR l i = .ok a ↔ l[i]? = some a := by
  unfold getR; split <;> simp_all

theorem getR_of_lt {l : List α} {i : Nat} (h : i < l.length) : getR l i = .ok l[i] := by
  rw [getR_ok]; simp [h]

theorem getR_eq_ub {l : List α} {i : Nat} (h : l.length ≤ i) : getR l i = .error .ub := by
  unfold getR; rw [List.getElem?_eq_none h]

theorem setR_ok {l l' : List α} {i : Nat} {a : α} :
    setR l i a = .ok l' ↔ i < l.length ∧ l' = l.set i a := by
  unfold setR; split <;> simp_all [eq_comm]

theorem modifyR_ok {l l' : List α} {i : Nat} {f : α → α} :
    modifyR l i f = .ok l' ↔ i < l.length ∧ l' = l.modify i f := by
  unfold modifyR; split <;> simp_all [eq_comm]

theorem backR_append (l : List α) (a : α) : backR (l ++ [a]) = .ok a := by
  simp [backR]

theorem backR_ok {l : List α} {a : α} : backR l = .ok a ↔ l.getLast? = some a := by
  unfold backR; split <;> simp_all

theorem bind_ok {x : R α} {f : α → R β} {b : β} :
    (x >>= f) = .ok b ↔ ∃ a, x = .ok a ∧ f a = .ok b := by
  cases x <;> simp [bind, Except.bind]

@[simp] theorem ok_bind {a : α} {f : α → R β} : ((Except.ok a : R α) >>= f) = f a := by
  simp only [bind, Except.bind]
@[simp] theorem error_bind {e : Fault} {f : α → R β} :
    ((Except.error e : R α) >>= f) = .error e := by
  simp only [bind, Except.bind]
@[simp] theorem pure_eq_ok {a : α} : (pure a : R α) = .ok a := rfl

theorem foldlM_ok_of_forall {f : β → α → R β} (P : β → Prop) (l : List α) (b : β) (hb : P b)
    (h : ∀ b, P b → ∀ a ∈ l, ∃ b', f b a = .ok b' ∧ P b') :
    ∃ b', l.foldlM f b = .ok b' ∧ P b' := by
  induction l generalizing b with
  | nil => exact ⟨b, rfl, hb⟩
  | cons a l ih =>
    obtain ⟨b1, h1, hP⟩ := h b hb a (by simp)
    obtain ⟨b2, h2, hP2⟩ := ih b1 hP (fun b hb a ha => h b hb a (by simp [ha]))
    exact ⟨b2, by rw [List.foldlM_cons, h1]; exact h2, hP2⟩

theorem foldlM_append_ok {f : β → α → R β} {l1 l2 : List α} {b b' : β} :
    (l1 ++ l2).foldlM f b = .ok b' ↔ ∃ c, l1.foldlM f b = .ok c ∧ l2.foldlM f c = .ok b' := by
  rw [List.foldlM_append, bind_ok]

section mm
variable {κ ν : Type*} [LinearOrder κ]

theorem mmInsert_perm (k : κ) (v : ν) (m : List (κ × ν)) :
    (mmInsert k v m).Perm ((k, v) :: m) := by
  induction m with
  | nil => simp [mmInsert]
  | cons x xs ih =>
    unfold mmInsert; split
    · exact (ih.cons x).trans (List.Perm.swap _ _ _)
    · exact .refl _

theorem mem_mmInsert {k : κ} {v : ν} {m : List (κ × ν)} {x : κ × ν} :
    x ∈ mmInsert k v m ↔ x = (k, v) ∨ x ∈ m := by
  rw [(mmInsert_perm k v m).mem_iff]; simp

theorem mmInsert_sorted (k : κ) (v : ν) (m : List (κ × ν))
    (h : m.Pairwise (fun a b => a.1 ≤ b.1)) :
    (mmInsert k v m).Pairwise (fun a b => a.1 ≤ b.1) := by
  induction m with
  | nil => simp [mmInsert]
  | cons x xs ih =>
    rw [List.pairwise_cons] at h
    unfold mmInsert; split
    · rename_i hx
      rw [List.pairwise_cons]
      refine ⟨fun y hy => ?_, ih h.2⟩
      rcases mem_mmInsert.1 hy with rfl | hy
      · exact hx
      · exact h.1 y hy
    · rename_i hx
      have hx' : k ≤ x.1 := le_of_lt (not_le.1 hx)
      rw [List.pairwise_cons, List.pairwise_cons]
      refine ⟨fun y hy => ?_, h⟩
      rcases List.mem_cons.1 hy with rfl | hy
      · exact hx'
      · exact le_trans hx' (h.1 y hy)

theorem mmInsertAll_perm (m kvs : List (κ × ν)) : (mmInsertAll m kvs).Perm (m ++ kvs) := by
  unfold mmInsertAll
  induction kvs generalizing m with
  | nil => simp
  | cons x xs ih =>
    rw [List.foldl_cons]
    refine (ih _).trans ?_
    refine (((mmInsert_perm x.1 x.2 m)).append_right xs).trans ?_
    simpa using (List.perm_middle (a := x) (l₁ := m) (l₂ := xs)).symm

theorem mmInsertAll_sorted (m kvs : List (κ × ν)) (h : m.Pairwise (fun a b => a.1 ≤ b.1)) :
    (mmInsertAll m kvs).Pairwise (fun a b => a.1 ≤ b.1) := by
  unfold mmInsertAll
  induction kvs generalizing m with
  | nil => simpa using h
  | cons x xs ih => exact ih _ (mmInsert_sorted _ _ _ h)

end mm

end Colloids
