import Verif.Dyn.Lemmas

/-! # Loops over pairs of times -/

namespace Colloids
namespace Dyn

section lag

variable {V : Type} [AddMonoid V]

/-- Sum of `W s (s+d)` over the first `m` starts among those that leave room for `d`. -/
def lagSum (W : Nat → Nat → V) (t0 m : Nat) (d : Nat) : V :=
  ((List.range' t0 m).map (fun s => W s (s + d))).sum

theorem lagSum_succ (W : Nat → Nat → V) (t0 m d : Nat) :
    lagSum W t0 (m + 1) d = lagSum W t0 m d + W (t0 + m) (t0 + m + d) := by
  unfold lagSum
  rw [List.range'_concat]
  simp

theorem lagInner (w : Nat → Nat → R V) (W : Nat → Nat → V) (start n k : Nat) (hk : k < n)
    (hw : ∀ d, 1 ≤ d → d ≤ k → w start (start + d) = .ok (W start (start + d)))
    (f : Nat → V) (g : Nat → Nat) :
    (List.range' (start + 1) k).foldlM (fun (s : List V × List Nat) stop => do
      let v ← w start stop
      let sum ← modifyR s.1 (stop - start) (· + v)
      let nb ← modifyR s.2 (stop - start) (· + 1)
      pure (sum, nb)) (tab n f, tab n g)
      = .ok (tab n (fun d => if 1 ≤ d ∧ d ≤ k then f d + W start (start + d) else f d),
          tab n (fun d => if 1 ≤ d ∧ d ≤ k then g d + 1 else g d)) := by
  induction k with
  | zero =>
    simp only [List.range'_zero, List.foldlM_nil, pure_eq_ok]
    congr 2
    · apply tab_congr; intro d _; rw [if_neg (by omega)]
    · apply tab_congr; intro d _; rw [if_neg (by omega)]
  | succ k ih =>
    rw [List.range'_concat, List.foldlM_append, ih (by omega) (fun d h1 h2 => hw d h1 (by omega)), ok_bind]
    simp only [List.foldlM_cons, List.foldlM_nil]
    have hst : start + 1 + 1 * k = start + (k + 1) := by omega
    rw [hst, hw (k + 1) (by omega) (le_refl _), ok_bind, Nat.add_sub_cancel_left,
      Boo.modifyR_tab _ hk, ok_bind, Boo.modifyR_tab _ hk, ok_bind]
    simp only [pure_eq_ok, ok_bind]
    congr 2
    · apply tab_congr; intro d hd
      by_cases h : d = k + 1
      · subst h; simp
      · by_cases h' : 1 ≤ d ∧ d ≤ k
        · simp [h, h', show 1 ≤ d ∧ d ≤ k + 1 by omega]
        · simp [h, h', show ¬ (1 ≤ d ∧ d ≤ k + 1) by omega]
    · apply tab_congr; intro d hd
      by_cases h : d = k + 1
      · subst h; simp
      · by_cases h' : 1 ≤ d ∧ d ≤ k
        · simp [h, h', show 1 ≤ d ∧ d ≤ k + 1 by omega]
        · simp [h, h', show ¬ (1 ≤ d ∧ d ≤ k + 1) by omega]

theorem lagSums_eq (w : Nat → Nat → R V) (W : Nat → Nat → V) (t0 t1 n : Nat) (hn : t1 - t0 < n)
    (hw : ∀ s e, t0 ≤ s → s < e → e ≤ t1 → w s e = .ok (W s e)) (f : Nat → V) (g : Nat → Nat) :
    lagSums t0 t1 w (tab n f, tab n g) = .ok
      (tab n (fun d => if 1 ≤ d ∧ d ≤ t1 - t0 then f d + lagSum W t0 (t1 - t0 + 1 - d) d else f d),
       tab n (fun d => if 1 ≤ d ∧ d ≤ t1 - t0 then g d + (t1 - t0 + 1 - d) else g d)) := by
  have key : ∀ m, m ≤ t1 - t0 → (List.range' t0 m).foldlM (fun s start =>
      (List.range' (start + 1) (t1 - start)).foldlM (fun (s : List V × List Nat) stop => do
        let v ← w start stop
        let sum ← modifyR s.1 (stop - start) (· + v)
        let nb ← modifyR s.2 (stop - start) (· + 1)
        pure (sum, nb)) s) (tab n f, tab n g) = .ok
      (tab n (fun d => if 1 ≤ d ∧ d ≤ t1 - t0 then f d + lagSum W t0 (min m (t1 - t0 + 1 - d)) d else f d),
       tab n (fun d => if 1 ≤ d ∧ d ≤ t1 - t0 then g d + min m (t1 - t0 + 1 - d) else g d)) := by
    intro m
    induction m with
    | zero =>
      intro _
      simp only [List.range'_zero, List.foldlM_nil, pure_eq_ok]
      congr 2
      · apply tab_congr; intro d _; simp [lagSum]
      · apply tab_congr; intro d _; simp
    | succ m ih =>
      intro hm
      rw [List.range'_concat, List.foldlM_append, ih (by omega), ok_bind]
      simp only [List.foldlM_cons, List.foldlM_nil, one_mul]
      rw [lagInner w W (t0 + m) n (t1 - (t0 + m)) (by omega)
        (fun d h1 h2 => hw _ _ (by omega) (by omega) (by omega))]
      simp only [pure_eq_ok, ok_bind]
      congr 2
      · apply tab_congr; intro d hd
        by_cases h : 1 ≤ d ∧ d ≤ t1 - (t0 + m)
        · rw [if_pos h, if_pos (by omega), if_pos (by omega), min_eq_left (by omega), min_eq_left (by omega),
            lagSum_succ, add_assoc]
        · by_cases h' : 1 ≤ d ∧ d ≤ t1 - t0
          · rw [if_neg h, if_pos h', if_pos h', min_eq_right (by omega), min_eq_right (by omega)]
          · rw [if_neg h, if_neg h', if_neg h']
      · apply tab_congr; intro d hd
        by_cases h : 1 ≤ d ∧ d ≤ t1 - (t0 + m)
        · rw [if_pos h, if_pos (by omega), if_pos (by omega), min_eq_left (by omega), min_eq_left (by omega),
            add_assoc]
        · by_cases h' : 1 ≤ d ∧ d ≤ t1 - t0
          · rw [if_neg h, if_pos h', if_pos h', min_eq_right (by omega), min_eq_right (by omega)]
          · rw [if_neg h, if_neg h', if_neg h']
  unfold lagSums
  rw [key _ (le_refl _)]
  congr 2
  · apply tab_congr; intro d hd
    by_cases h' : 1 ≤ d ∧ d ≤ t1 - t0
    · rw [if_pos h', if_pos h', min_eq_right (by omega)]
    · rw [if_neg h', if_neg h']
  · apply tab_congr; intro d hd
    by_cases h' : 1 ≤ d ∧ d ≤ t1 - t0
    · rw [if_pos h', if_pos h', min_eq_right (by omega)]
    · rw [if_neg h', if_neg h']

/-- If the last pair from the first start fails, the loops fail. -/
theorem lagSums_error (w : Nat → Nat → R V) (W : Nat → Nat → V) (t0 k n : Nat) (hk : k < n)
    (hw : ∀ d, 1 ≤ d → d ≤ k → w t0 (t0 + d) = .ok (W t0 (t0 + d))) (e : Fault)
    (he : w t0 (t0 + (k + 1)) = .error e) (f : Nat → V) (g : Nat → Nat) :
    lagSums t0 (t0 + (k + 1)) w (tab n f, tab n g) = .error e := by
  unfold lagSums
  rw [Nat.add_sub_cancel_left, List.range'_succ, List.foldlM_cons, Nat.add_sub_cancel_left,
    List.range'_concat, List.foldlM_append, lagInner w W t0 n k hk hw, ok_bind]
  simp only [List.foldlM_cons, one_mul]
  rw [show t0 + 1 + k = t0 + (k + 1) by omega, he]
  rfl

end lag

theorem replicate_eq_tab {α : Type} (n : Nat) (a : α) : List.replicate n a = tab n (fun _ => a) := by
  apply List.ext_getElem
  · simp [tab]
  · intro i h1 h2
    simp [tab]

theorem nbStart_eq (n : Nat) (hn : 0 < n) :
    nbStart n = .ok (tab n (fun d => if d = 0 then 1 else 0)) := by
  unfold nbStart
  rw [replicate_eq_tab, setR_tab _ hn]

theorem zipWith_tab {α β γ : Type} (F : α → β → γ) (n : Nat) (f : Nat → α) (g : Nat → β) :
    List.zipWith F (tab n f) (tab n g) = tab n (fun i => F (f i) (g i)) := by
  apply List.ext_getElem?
  intro i
  unfold tab
  rw [List.getElem?_zipWith]
  by_cases h : i < n <;> simp [h]

variable {G : Type} [Field G] [LinearOrder G]

theorem getSD_eq {D : DynParts G} {sel : List Nat} {t0 t1 : Nat} {x : Nat → Nat → Coord G}
    (hx : ∀ tr ∈ sel, at_ D tr t0 = .ok (x tr t0) ∧ at_ D tr t1 = .ok (x tr t1)) :
    getSD D sel t0 t1 =
      .ok ((sel.map (fun tr => dot3 (x tr t1 - x tr t0) (x tr t1 - x tr t0))).sum) := by
  unfold getSD
  have : sel.foldlM (fun (result : G) tr => do
        let diff ← getDiff D tr t0 tr t1
        pure (result + dot3 diff diff)) 0
      = .ok (0 + (sel.map (fun tr => dot3 (x tr t1 - x tr t0) (x tr t1 - x tr t0))).sum) := by
    apply Boo.foldlM_add
    intro acc tr htr
    unfold getDiff
    rw [(hx tr htr).2, ok_bind, (hx tr htr).1, ok_bind]
    rfl
  rw [this, zero_add]

end Dyn
end Colloids
