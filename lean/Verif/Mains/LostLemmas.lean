import Verif.Mains.LostModel
import Verif.Bonds.Lemmas
import Verif.Dyn.Lemmas
import Verif.Index.Lemmas

/-! # Lemmas on the neighbours read from files of bonds -/

namespace Colloids
namespace Mains

/-- There is a bond between the positions `p` and `q`. -/
def Joined (bonds : List Bond) (p q : Nat) : Prop :=
  ∃ b ∈ bonds, (b.first = p ∧ b.second = q) ∨ (b.first = q ∧ b.second = p)

theorem readSize_show (ws : List Char) (hws : ∀ c ∈ ws, isSpace c = true) (n : Nat) (hn : n < szMod)
    (r : List Char) (hr : ∀ c ∈ r.head?, c.isDigit = false) (old : Option Nat) :
    readSize { rest := ws ++ (showNat n ++ r) } old =
      ({ rest := r, eof := r.isEmpty, fail := false }, some n) := by
  have hdrop : ∀ ws : List Char, (∀ c ∈ ws, isSpace c = true) →
      ((ws ++ (showNat n ++ r)).dropWhile isSpace).isEmpty = false := by
    intro ws
    induction ws with
    | nil =>
      intro _
      cases hsn : showNat n with
      | nil => exact absurd hsn (showNat_ne_nil n)
      | cons c cs =>
        have : c.isDigit = true := showNat_digit (n := n) (by rw [hsn]; simp)
        simp [digit_not_space this]
    | cons x xs ih =>
      intro hws
      rw [List.cons_append, List.dropWhile_cons_of_pos (hws x (by simp))]
      exact ih (fun c hc => hws c (by simp [hc]))
  unfold readSize
  rw [readNat_show ws hws n hn r hr 0]
  dsimp only
  rw [hdrop ws hws]
  rfl

theorem readSize_blank {ws : List Char} (hws : ∀ c ∈ ws, isSpace c = true) (hne : ws ≠ []) (old : Option Nat) :
    readSize { rest := ws } old = ({ rest := [], eof := true, fail := true }, old) := by
  unfold readSize IStream.readNat
  simp [IStream.good, dropWhile_space hws]

theorem readSize_bad {s : IStream} (h : s.good = false) (old : Option Nat) :
    readSize s old = ({ s with fail := true }, old) := by
  unfold readSize IStream.readNat
  simp [h]

/-- The bonds added one by one. -/
def addBonds (inv : List Nat) (easy : List (List Nat)) (bs : List Bond) : R (List (List Nat)) :=
  bs.foldlM (fun e b => addNgb inv e b.first b.second) easy

theorem bondLoop_lines (inv : List Nat) : ∀ (bs : List Bond) (fuel a b : Nat) (easy out : List (List Nat)),
    bs.length + 1 < fuel → (∀ x ∈ bs, x.first < szMod ∧ x.second < szMod) →
    addBonds inv easy (bs ++ [(⟨a, b⟩ :: bs).getLast (by simp)]) = .ok out →
    bondLoop inv fuel { rest := bondLines bs ['\n'] } (some a) (some b) easy = .ok out := by
  intro bs
  induction bs with
  | nil =>
    intro fuel a b easy out hf _ h
    obtain ⟨f, rfl⟩ : ∃ f, fuel = f + 2 := ⟨fuel - 2, by simp at hf; omega⟩
    have e0 : bondLines [] ['\n'] = ['\n'] := by simp [bondLines]
    unfold bondLoop
    rw [e0, readSize_blank (by simp [isSpace]) (by simp)]
    dsimp only
    rw [readSize_bad (by rfl)]
    simp only [addBonds, List.nil_append, List.getLast_singleton, List.foldlM_cons, List.foldlM_nil] at h
    rw [bind_ok] at h
    obtain ⟨e, he, h⟩ := h
    have : e = out := Except.ok.inj h
    subst this
    simp only [IStream.good, Bool.not_false, Bool.and_true, Bool.not_true, Bool.false_eq_true, if_false]
    rw [he, ok_bind]
    unfold bondLoop
    rfl
  | cons c bs ih =>
    intro fuel a b easy out hf hb h
    obtain ⟨f, rfl⟩ : ∃ f, fuel = f + 1 := ⟨fuel - 1, by simp at hf; omega⟩
    have hc := hb c (by simp)
    have e : bondLines (c :: bs) ['\n'] = ['\n'] ++ (showNat c.first ++ ([' '] ++ (showNat c.second ++ bondLines bs ['\n']))) := by
      simp [bondLines, Bond.write, Bond.low, Bond.high]
    have hne : (bondLines bs ['\n']).isEmpty = false := by
      cases h : bondLines bs ['\n'] with
      | nil =>
        exfalso
        have : (bondLines bs ['\n']).length = 0 := by rw [h]; rfl
        simp [bondLines] at this
      | cons _ _ => rfl
    unfold bondLoop
    rw [e, readSize_show ['\n'] (by simp [isSpace]) c.first hc.1 _ (by simp)]
    dsimp only
    have e2 : ([' '] ++ (showNat c.second ++ bondLines bs ['\n'])).isEmpty = false := rfl
    rw [e2, readSize_show [' '] (by simp [isSpace]) c.second hc.2 _
      (bondLines_head bs ['\n'] (by simp [isSpace])), hne]
    dsimp only
    simp only [IStream.good, Bool.not_false, Bool.and_self, Bool.not_true, Bool.false_eq_true, if_false]
    rw [List.cons_append] at h
    unfold addBonds at h
    rw [List.foldlM_cons, bind_ok] at h
    obtain ⟨e', he', h⟩ := h
    rw [he', ok_bind]
    refine ih f c.first c.second e' out (by simp at hf; omega) (fun x hx => hb x (by simp [hx])) ?_
    unfold addBonds
    rw [List.getLast_cons (by simp)] at h
    exact h

theorem bondLoop_write (inv : List Nat) (b : Bond) (bs : List Bond)
    (hb : ∀ x ∈ b :: bs, x.first < szMod ∧ x.second < szMod) (easy out : List (List Nat))
    (h : addBonds inv easy (b :: bs ++ [(b :: bs).getLast (by simp)]) = .ok out) :
    bondLoop inv ((writeBonds (b :: bs)).length + 2) { rest := writeBonds (b :: bs) } none none easy = .ok out := by
  have hshift : ∀ l : List Bond, (l.map fun b => b.write ++ ['\n']).flatten =
      match l with
      | [] => []
      | b :: l => b.write ++ bondLines l ['\n'] := by
    intro l
    induction l with
    | nil => rfl
    | cons b l ih =>
      rw [List.map_cons, List.flatten_cons, ih]
      cases l with
      | nil => simp [bondLines]
      | cons c l => simp [bondLines]
  have hc := hb b (by simp)
  have e : writeBonds (b :: bs) = [] ++ (showNat b.first ++ ([' '] ++ (showNat b.second ++ bondLines bs ['\n']))) := by
    unfold writeBonds
    rw [hshift]
    simp [Bond.write, Bond.low, Bond.high]
  have hne : (bondLines bs ['\n']).isEmpty = false := by
    cases h : bondLines bs ['\n'] with
    | nil =>
      exfalso
      have : (bondLines bs ['\n']).length = 0 := by rw [h]; rfl
      simp [bondLines] at this
    | cons _ _ => rfl
  have hlen : bs.length ≤ (writeBonds (b :: bs)).length := by
    have : ∀ l : List Bond, l.length ≤ ((l.map fun b => b.write ++ ['\n']).flatten).length := by
      intro l
      induction l with
      | nil => simp
      | cons b l ih =>
        rw [List.map_cons, List.flatten_cons, List.length_append, List.length_cons]
        have : 0 < (b.write ++ ['\n']).length := by simp
        omega
    have := this (b :: bs)
    unfold writeBonds
    simp only [List.length_cons] at this ⊢
    omega
  have hlen' : bs.length + 1 < (writeBonds (b :: bs)).length + 1 := by
    rw [e]
    rw [e] at hlen
    have h1 : bs.length ≤ (bondLines bs ['\n']).length := by
      have : ∀ l : List Bond, l.length ≤ ((l.map fun b => '\n' :: b.write).flatten).length := by
        intro l
        induction l with
        | nil => simp
        | cons b l ih =>
          rw [List.map_cons, List.flatten_cons, List.length_append, List.length_cons]
          simp only [List.length_cons]
          omega
      have := this bs
      unfold bondLines
      rw [List.length_append]
      omega
    simp only [List.length_append, List.nil_append, List.length_cons, List.length_nil]
    omega
  suffices key : ∀ fuel, bs.length + 1 < fuel →
      bondLoop inv (fuel + 1) { rest := writeBonds (b :: bs) } none none easy = .ok out from key _ hlen'
  intro fuel hlen'
  unfold bondLoop
  rw [e, readSize_show [] (by simp) b.first hc.1 _ (by simp)]
  dsimp only
  have e2 : ([' '] ++ (showNat b.second ++ bondLines bs ['\n'])).isEmpty = false := rfl
  rw [e2, readSize_show [' '] (by simp [isSpace]) b.second hc.2 _
    (bondLines_head bs ['\n'] (by simp [isSpace])), hne]
  dsimp only
  simp only [IStream.good, Bool.not_false, Bool.and_self, Bool.not_true, Bool.false_eq_true, if_false]
  rw [List.cons_append] at h
  unfold addBonds at h
  rw [List.foldlM_cons, bind_ok] at h
  obtain ⟨e', he', h⟩ := h
  rw [he', ok_bind]
  exact bondLoop_lines inv bs fuel b.first b.second e' out hlen' (fun x hx => hb x (by simp [hx])) h

theorem addNgb_ok {inv : List Nat} {easy : List (List Nat)} (hl : easy.length = inv.length) {a b : Nat}
    (ha : a < inv.length) (hb : b < inv.length) :
    ∃ easy', addNgb inv easy a b = .ok easy' ∧ easy'.length = inv.length ∧
      ∀ p tr, tr ∈ easy'.getD p [] ↔ tr ∈ easy.getD p [] ∨ (p = a ∧ inv[b]? = some tr) ∨ (p = b ∧ inv[a]? = some tr) := by
  refine ⟨(easy.modify a (· ++ [inv[b]])).modify b (· ++ [inv[a]]), ?_, by simpa using hl, ?_⟩
  · unfold addNgb
    rw [getR_of_lt hb, ok_bind, modifyR_ok.2 ⟨by omega, rfl⟩, ok_bind, getR_of_lt ha, ok_bind,
      modifyR_ok.2 ⟨by simp; omega, rfl⟩]
  · intro p tr
    have eb : inv[b]? = some inv[b] := by simp [hb]
    have ea : inv[a]? = some inv[a] := by simp [ha]
    rw [eb, ea]
    simp only [List.getD_eq_getElem?_getD, List.getElem?_modify]
    by_cases hp : p < easy.length
    · rw [List.getElem?_eq_getElem hp]
      by_cases h1 : a = p <;> by_cases h2 : b = p
      · subst h1; subst h2; simp [eq_comm]
      · subst h1; simp [h2, Ne.symm h2, eq_comm]
      · subst h2; simp [h1, Ne.symm h1, eq_comm]
      · simp [h1, h2, Ne.symm h1, Ne.symm h2]
    · have h1 : p ≠ a := by omega
      have h2 : p ≠ b := by omega
      rw [List.getElem?_eq_none (by omega)]
      simp [h1, h2]

theorem addBonds_ok {inv : List Nat} : ∀ (bs : List Bond) (easy : List (List Nat)), easy.length = inv.length →
    (∀ b ∈ bs, b.first < inv.length ∧ b.second < inv.length) →
    ∃ easy', addBonds inv easy bs = .ok easy' ∧ easy'.length = inv.length ∧
      ∀ p tr, tr ∈ easy'.getD p [] ↔ tr ∈ easy.getD p [] ∨ ∃ q, inv[q]? = some tr ∧ Joined bs p q := by
  intro bs
  induction bs with
  | nil => intro easy hl _; exact ⟨easy, rfl, hl, by simp [Joined]⟩
  | cons b bs ih =>
    intro easy hl hb
    obtain ⟨e1, h1, h2, h3⟩ := addNgb_ok hl (hb b (by simp)).1 (hb b (by simp)).2
    obtain ⟨e2, k1, k2, k3⟩ := ih e1 h2 (fun x hx => hb x (by simp [hx]))
    refine ⟨e2, ?_, k2, ?_⟩
    · unfold addBonds
      rw [List.foldlM_cons, h1, ok_bind]
      exact k1
    · intro p tr
      rw [k3, h3]
      unfold Joined
      simp only [List.mem_cons, exists_eq_or_imp]
      constructor
      · rintro ((h | ⟨rfl, h⟩ | ⟨rfl, h⟩) | ⟨q, hq, hj⟩)
        · exact .inl h
        · exact .inr ⟨_, h, .inl (.inl ⟨rfl, rfl⟩)⟩
        · exact .inr ⟨_, h, .inl (.inr ⟨rfl, rfl⟩)⟩
        · exact .inr ⟨q, hq, .inr hj⟩
      · rintro (h | ⟨q, hq, (⟨rfl, rfl⟩ | ⟨rfl, rfl⟩) | hj⟩)
        · exact .inl (.inl h)
        · exact .inl (.inr (.inl ⟨rfl, hq⟩))
        · exact .inl (.inr (.inr ⟨rfl, hq⟩))
        · exact .inr ⟨q, hq, hj⟩

/-- The neighbours read from a file of bonds that is not empty. -/
theorem ngbFrame_ok {inv : List Nat} (hn : inv.length ≤ szMod) {bs : List Bond} (hne : bs ≠ [])
    (hb : ∀ b ∈ bs, b.first < inv.length ∧ b.second < inv.length) :
    ∃ frame, ngbFrame inv (some (writeBonds bs)) = .ok frame ∧ frame.length = inv.length ∧
      ∀ (p : Nat) (row : List Nat), frame[p]? = some row → row.Pairwise (· < ·) ∧
        ∀ tr, tr ∈ row ↔ ∃ q, inv[q]? = some tr ∧ Joined bs p q := by
  obtain ⟨b, bs, rfl⟩ := List.exists_cons_of_ne_nil hne
  have hlast : (b :: bs).getLast (by simp) ∈ b :: bs := List.getLast_mem _
  obtain ⟨easy, h1, h2, h3⟩ := addBonds_ok (inv := inv) (b :: bs ++ [(b :: bs).getLast (by simp)])
    (List.replicate inv.length []) (by simp) (by
      intro x hx
      rw [List.mem_append] at hx
      rcases hx with hx | hx
      · exact hb x hx
      · rw [List.mem_singleton] at hx; subst hx; exact hb _ hlast)
  have hj : ∀ p q, Joined (b :: bs ++ [(b :: bs).getLast (by simp)]) p q ↔ Joined (b :: bs) p q := by
    intro p q
    constructor
    · rintro ⟨x, hx, h⟩
      rw [List.mem_append] at hx
      rcases hx with hx | hx
      · exact ⟨x, hx, h⟩
      · rw [List.mem_singleton] at hx; subst hx; exact ⟨_, hlast, h⟩
    · rintro ⟨x, hx, h⟩
      exact ⟨x, List.mem_append_left _ hx, h⟩
  refine ⟨easy.map sortUnique, ?_, by simpa using h2, ?_⟩
  · unfold ngbFrame
    dsimp only
    rw [bondLoop_write inv b bs (fun x hx => by have := hb x hx; omega) _ easy h1, ok_bind]
    rfl
  · intro p row hr
    rw [List.getElem?_map, Option.map_eq_some_iff] at hr
    obtain ⟨l, hl, rfl⟩ := hr
    refine ⟨sortUnique_sorted _, ?_⟩
    intro tr
    rw [mem_sortUnique]
    have := h3 p tr
    rw [List.getD_eq_getElem?_getD, hl] at this
    simp only [Option.getD_some] at this
    rw [this]
    constructor
    · rintro (h | ⟨q, hq, h⟩)
      · exfalso
        have e : (List.replicate inv.length ([] : List Nat)).getD p [] = [] := by
          rw [List.getD_eq_getElem?_getD, List.getElem?_replicate]
          split <;> rfl
        rw [e] at h
        simp at h
      · exact ⟨q, hq, (hj p q).1 h⟩
    · rintro ⟨q, hq, h⟩
      exact .inr ⟨q, hq, (hj p q).2 h⟩

/-- On an empty file, uninitialised numbers are used. -/
theorem ngbFrame_empty (inv : List Nat) : ngbFrame inv (some []) = .error .ub := by
  unfold ngbFrame bondLoop readSize IStream.readNat
  simp [IStream.good]

theorem length_eq_countP {l : List Nat} {n : Nat} {P : Nat → Prop} [DecidablePred P] (hs : l.Pairwise (· < ·))
    (h : ∀ x, x ∈ l ↔ x < n ∧ P x) : l.length = (List.range n).countP (fun x => decide (P x)) := by
  rw [List.countP_eq_length_filter]
  refine List.Perm.length_eq ((List.perm_ext_iff_of_nodup ?_ ?_).2 ?_)
  · exact hs.imp (fun h => Nat.ne_of_lt h)
  · exact List.Nodup.filter _ List.nodup_range
  · intro x
    rw [h, List.mem_filter, List.mem_range, decide_eq_true_iff]

end Mains
end Colloids
