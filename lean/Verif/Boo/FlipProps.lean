import Verif.Boo.FlipModel
import Verif.Boo.RotReflect
import Verif.Bonds.Lemmas

/-! # C85 : coarse graining with half turns -/

namespace Colloids
namespace Boo

/-- Half turn around the bond of the tensor of a neighbour, as written in the documentation of
`getFlipBOOs`: the neighbour `o` seen from `p`. -/
noncomputable def turned (pos : List (Fin 3 → ℝ)) (B : List BooData) (p o : Nat) : R BooData := do
  let q ← getR B o
  let x ← getR pos p
  let y ← getR pos o
  rotateByPi q (fun i => y i - x i)

/-- The average of a tensor and of other ones. -/
noncomputable def averageWith (q : BooData) (rs : List BooData) : BooData :=
  (rs.foldl (fun s r => List.zipWith (· + ·) s r) q).map (fun z => z / ((1 + rs.length : Nat) : ℂ))

/-- The particle has a tensor of non null first coefficient. -/
def NonNull (B : List BooData) (p : Nat) : Prop := ∃ q z, B[p]? = some q ∧ q[0]? = some z ∧ z ≠ 0

theorem rotate_neg {q : BooData} (hq : q.length = 36) (x y : Fin 3 → ℝ) :
    rotateByPi q (fun i => y i - x i) = rotateByPi q (fun i => x i - y i) := by
  by_cases h : (fun i => x i - y i) = (0 : Fin 3 → ℝ)
  · have e : (fun i => y i - x i) = (0 : Fin 3 → ℝ) := by
      funext i
      have := congrFun h i
      simp only [Pi.zero_apply] at this ⊢
      linarith
    rw [h, e]
  · rw [← C82_axis q hq _ h (-1) (by norm_num)]
    refine congrArg _ ?_
    funext i
    ring

theorem posAt_ok {pos : List (Fin 3 → ℝ)} {p : Nat} (h : p < pos.length) :
    posAt pos p = .ok pos[p] := by
  unfold posAt
  rw [List.getElem?_eq_getElem h]

/-- The value of `turned`. -/
noncomputable def turnD (pos : List (Fin 3 → ℝ)) (B : List BooData) (p o : Nat) : BooData :=
  match turned pos B p o with
  | .ok r => r
  | .error _ => []

theorem turned_ok {pos : List (Fin 3 → ℝ)} {B : List BooData} (hB : ∀ q ∈ B, q.length = 36)
    (hpos : pos.length = B.length) {p o : Nat} (hp : p < B.length) (ho : o < B.length) :
    turned pos B p o = .ok (turnD pos B p o) ∧ (turnD pos B p o).length = 36 := by
  have h : ∃ r, turned pos B p o = .ok r ∧ r.length = 36 := by
    unfold turned
    rw [getR_of_lt ho, ok_bind, getR_of_lt (by omega), ok_bind, getR_of_lt (by omega), ok_bind]
    exact C82_total _ (hB _ (List.getElem_mem ho)) _
  obtain ⟨r, e, hr⟩ := h
  have : turnD pos B p o = r := by unfold turnD; rw [e]
  rw [this]
  exact ⟨e, hr⟩

open Classical in
/-- The partners of a particle. -/
noncomputable def partners (B : List BooData) (bonds : List Bond) (p : Nat) : List Nat :=
  bondRow p (bonds.filter (fun b => decide (NonNull B b.low ∧ NonNull B b.high)))

theorem bondRow_append (p : Nat) (bs : List Bond) (b : Bond) :
    bondRow p (bs ++ [b]) = bondRow p bs ++ bondRow p [b] := by
  unfold bondRow
  rw [List.flatMap_append]

/-- The accumulated sums. -/
noncomputable def flipSum (pos : List (Fin 3 → ℝ)) (B : List BooData) (p : Nat) (q : BooData)
    (os : List Nat) : BooData :=
  os.foldl (fun s o => List.zipWith (· + ·) s (turnD pos B p o)) q

theorem flip_fold {pos : List (Fin 3 → ℝ)} {B : List BooData} (hB : ∀ q ∈ B, q.length = 36)
    (hpos : pos.length = B.length) (bonds : List Bond)
    (hb : ∀ b ∈ bonds, b.low < b.high ∧ b.high < B.length) :
    ∃ acc, bonds.foldlM (flipStep pos B) (B, List.replicate B.length 1) = .ok acc ∧
      acc.1.length = B.length ∧ acc.2.length = B.length ∧
      ∀ p (hp : p < B.length), acc.1[p]? = some (flipSum pos B p B[p] (partners B bonds p)) ∧
        acc.2[p]? = some (1 + (partners B bonds p).length) := by
  induction bonds using List.reverseRecOn with
  | nil =>
    refine ⟨_, rfl, rfl, by simp, ?_⟩
    intro p hp
    simp [partners, bondRow, flipSum, hp]
  | append_singleton bs b ih =>
    obtain ⟨acc, e, l1, l2, hv⟩ := ih (fun c hc => hb c (by simp [hc]))
    obtain ⟨h1, h2⟩ := hb b (by simp)
    have h1' : b.low < B.length := by omega
    rw [List.foldlM_append, e, ok_bind, List.foldlM_cons]
    simp only [List.foldlM_nil, bind_pure]
    have hlo : (B[b.low]'h1').length = 36 := hB _ (List.getElem_mem h1')
    have hhi : (B[b.high]'h2).length = 36 := hB _ (List.getElem_mem h2)
    have hnl : NonNull B b.low ↔ (B[b.low]'h1')[0]'(by omega) ≠ 0 := by
      unfold NonNull
      constructor
      · rintro ⟨q, z, e1, e2, h⟩
        rw [List.getElem?_eq_getElem h1'] at e1
        cases e1
        rw [List.getElem?_eq_getElem (by omega)] at e2
        cases e2
        exact h
      · intro h
        exact ⟨_, _, List.getElem?_eq_getElem h1', List.getElem?_eq_getElem (by omega), h⟩
    have hnh : NonNull B b.high ↔ (B[b.high]'h2)[0]'(by omega) ≠ 0 := by
      unfold NonNull
      constructor
      · rintro ⟨q, z, e1, e2, h⟩
        rw [List.getElem?_eq_getElem h2] at e1
        cases e1
        rw [List.getElem?_eq_getElem (by omega)] at e2
        cases e2
        exact h
      · intro h
        exact ⟨_, _, List.getElem?_eq_getElem h2, List.getElem?_eq_getElem (by omega), h⟩
    by_cases hn : NonNull B b.low ∧ NonNull B b.high
    · have hpart : ∀ p, partners B (bs ++ [b]) p = partners B bs p ++ bondRow p [b] := by
        intro p
        unfold partners
        rw [List.filter_append, List.filter_cons, if_pos (by simpa using hn), List.filter_nil,
          bondRow_append]
      have hstep : flipStep pos B acc b = .ok
          ((acc.1.modify b.low (fun q => List.zipWith (· + ·) q (turnD pos B b.low b.high))).modify b.high
            (fun q => List.zipWith (· + ·) q (turnD pos B b.high b.low)),
           (acc.2.modify b.low (· + 1)).modify b.high (· + 1)) := by
        have t1 := (turned_ok hB hpos h1' h2).1
        have t2 := (turned_ok hB hpos h2 h1').1
        unfold turned at t1 t2
        rw [getR_of_lt h2, ok_bind, getR_of_lt (by omega), ok_bind, getR_of_lt (by omega), ok_bind] at t1
        rw [getR_of_lt h1', ok_bind, getR_of_lt (by omega), ok_bind, getR_of_lt (by omega), ok_bind,
          rotate_neg hlo] at t2
        unfold flipStep partDiff
        rw [getR_of_lt h1', ok_bind, getR_of_lt (by omega), ok_bind, if_neg (hnl.1 hn.1),
          getR_of_lt h2, ok_bind, getR_of_lt (by omega), ok_bind, if_neg (hnh.1 hn.2),
          posAt_ok (by omega), ok_bind, posAt_ok (by omega), ok_bind, pure_eq_ok, ok_bind, t1,
          ok_bind]
        unfold modifyR
        rw [if_pos (by omega), ok_bind, t2, ok_bind, if_pos (by rw [List.length_modify]; omega), ok_bind,
          if_pos (by omega), ok_bind, if_pos (by rw [List.length_modify]; omega), ok_bind, pure_eq_ok]
      refine ⟨_, hstep, by simp [l1], by simp [l2], ?_⟩
      intro p hp
      obtain ⟨v1, v2⟩ := hv p hp
      rw [hpart p]
      simp only [List.getElem?_modify, v1, v2]
      by_cases hl : b.low = p
      · subst hl
        have hne : b.high ≠ b.low := by omega
        have : bondRow b.low [b] = [b.high] := by simp [bondRow, hne]
        rw [this]
        simp [hne, flipSum, List.foldl_append]
        omega
      · by_cases hh : b.high = p
        · subst hh
          have : bondRow b.high [b] = [b.low] := by simp [bondRow, hl]
          rw [this]
          simp [hl, flipSum, List.foldl_append]
          omega
        · have : bondRow p [b] = [] := by simp [bondRow, hl, hh]
          rw [this]
          simp [hl, hh]
    · have hpart : ∀ p, partners B (bs ++ [b]) p = partners B bs p := by
        intro p
        unfold partners
        rw [List.filter_append, List.filter_cons, if_neg (by simpa using hn), List.filter_nil,
          List.append_nil]
      refine ⟨acc, ?_, l1, l2, ?_⟩
      · unfold flipStep
        rw [getR_of_lt h1', ok_bind, getR_of_lt (by omega), ok_bind]
        by_cases hz : (B[b.low]'h1')[0]'(by omega) = 0
        · rw [if_pos hz]; rfl
        · rw [if_neg hz, getR_of_lt h2, ok_bind, getR_of_lt (by omega), ok_bind]
          have : (B[b.high]'h2)[0]'(by omega) = 0 := by
            by_contra hc
            exact hn ⟨hnl.2 hz, hnh.2 hc⟩
          rw [if_pos this]; rfl
      · intro p hp
        rw [hpart p]
        exact hv p hp

theorem mem_partners {B : List BooData} {bonds : List Bond} (hb : ∀ b ∈ bonds, b.low < b.high)
    {p o : Nat} : o ∈ partners B bonds p ↔
      Bond.mk' p o ∈ bonds ∧ NonNull B p ∧ NonNull B o := by
  unfold partners
  rw [mem_bondRow]
  simp only [List.mem_filter, decide_eq_true_eq]
  constructor
  · rintro ⟨b, ⟨hm, n1, n2⟩, ⟨rfl, rfl⟩ | ⟨rfl, rfl⟩⟩
    · refine ⟨?_, n1, n2⟩
      unfold Bond.mk'
      rw [if_pos (hb b hm)]
      exact hm
    · refine ⟨?_, n2, n1⟩
      unfold Bond.mk'
      rw [if_neg (by have := hb b hm; omega)]
      exact hm
  · rintro ⟨hm, n1, n2⟩
    refine ⟨_, ⟨hm, ?_⟩, ?_⟩
    · unfold Bond.mk' Bond.low Bond.high
      split
      · exact ⟨n1, n2⟩
      · exact ⟨n2, n1⟩
    · unfold Bond.mk' Bond.low Bond.high
      split
      · exact Or.inl ⟨rfl, rfl⟩
      · exact Or.inr ⟨rfl, rfl⟩

theorem flip_mapM {pos : List (Fin 3 → ℝ)} {B : List BooData} (hB : ∀ q ∈ B, q.length = 36)
    (hpos : pos.length = B.length) {p : Nat} (hp : p < B.length) (os : List Nat)
    (ho : ∀ o ∈ os, o < B.length) : os.mapM (turned pos B p) = .ok (os.map (turnD pos B p)) := by
  induction os with
  | nil => rfl
  | cons o os ih =>
    rw [List.mapM_cons, (turned_ok hB hpos hp (ho o (by simp))).1, ok_bind,
      ih (fun x hx => ho x (by simp [hx])), ok_bind]
    rfl

theorem getD_of_lt {α : Type} {l : List α} {i : Nat} (h : i < l.length) (d : α) :
    l.getD i d = l[i] := by
  rw [List.getD_eq_getElem?_getD, List.getElem?_eq_getElem h]
  rfl

/-- Each tensor is averaged with the half turned tensors of the bonded particles, each one once, of the
bonds between two particles of non null tensors. -/
theorem C85_flip (pos : List (Fin 3 → ℝ)) (B : List BooData) (bonds : List Bond)
    (hB : ∀ q ∈ B, q.length = 36) (hpos : pos.length = B.length) (hs : IsBondSet bonds)
    (hb : ∀ b ∈ bonds, b.low < b.high ∧ b.high < B.length) :
    ∃ res, getFlipBOOs pos B bonds = .ok res ∧ res.length = B.length ∧
      ∀ p (hp : p < B.length), ∃ (os : List Nat) (rs : List BooData), os.Pairwise (· < ·) ∧
        (∀ o, o ∈ os ↔ Bond.mk' p o ∈ bonds ∧ NonNull B p ∧ NonNull B o) ∧
        os.mapM (turned pos B p) = .ok rs ∧ res[p]? = some (averageWith B[p] rs) := by
  obtain ⟨acc, e, l1, l2, hv⟩ := flip_fold hB hpos bonds hb
  refine ⟨tab B.length (fun p => averageWith (B.getD p [])
    ((partners B bonds p).map (turnD pos B p))), ?_, tab_length _ _, ?_⟩
  · unfold getFlipBOOs
    rw [e, ok_bind]
    apply mapM_tab
    intro p hp
    obtain ⟨v1, v2⟩ := hv p hp
    rw [getR_ok.2 v1, ok_bind, getR_ok.2 v2, ok_bind]
    refine congrArg Except.ok ?_
    unfold averageWith flipSum
    rw [List.foldl_map, List.length_map, getD_of_lt hp]
  · intro p hp
    refine ⟨partners B bonds p, _, ?_, fun o => mem_partners (fun b h => (hb b h).1),
      flip_mapM hB hpos hp _ ?_, ?_⟩
    · unfold partners
      exact bondRow_sorted (hs.filter _) (fun b h => (hb b (List.mem_filter.1 h).1).1)
    · intro o ho
      have := ((mem_partners (fun b h => (hb b h).1)).1 ho).1
      have h2 := (hb _ this).2
      have h1 := (hb _ this).1
      unfold Bond.mk' at h1 h2
      unfold Bond.high at h2
      unfold Bond.low Bond.high at h1
      split at h2
      · exact h2
      · rename_i h
        rw [if_neg h] at h1
        simp only at h1 h2
        omega
    · rw [getR_ok.1 (getR_tab hp), getD_of_lt hp]

/-- A particle without any usable bond keeps its tensor. -/
theorem C85_alone (pos : List (Fin 3 → ℝ)) (B : List BooData) (bonds : List Bond)
    (hB : ∀ q ∈ B, q.length = 36) (hpos : pos.length = B.length) (hs : IsBondSet bonds)
    (hb : ∀ b ∈ bonds, b.low < b.high ∧ b.high < B.length) (res : List BooData)
    (h : getFlipBOOs pos B bonds = .ok res) (p : Nat) (hp : p < B.length)
    (ha : ∀ o, Bond.mk' p o ∈ bonds → ¬(NonNull B p ∧ NonNull B o)) : res[p]? = B[p]? := by
  obtain ⟨res', e, _, hv⟩ := C85_flip pos B bonds hB hpos hs hb
  have : res' = res := by rw [h] at e; exact (Except.ok.inj e).symm
  subst res'
  obtain ⟨os, rs, _, hm, hr, hval⟩ := hv p hp
  have ho : os = [] := by
    apply List.eq_nil_iff_forall_not_mem.2
    intro o ho
    have := (hm o).1 ho
    exact ha o this.1 this.2
  subst ho
  have : rs = [] := (Except.ok.inj hr).symm
  subst this
  rw [hval, List.getElem?_eq_getElem hp]
  simp [averageWith]

/-- When the environments of all the usable neighbours are the half turned image of the one of the
particle, as in a perfect twin, its tensor is unchanged by the average. -/
theorem C85_twin (pos : List (Fin 3 → ℝ)) (B : List BooData) (bonds : List Bond)
    (hB : ∀ q ∈ B, q.length = 36) (hpos : pos.length = B.length) (hs : IsBondSet bonds)
    (hb : ∀ b ∈ bonds, b.low < b.high ∧ b.high < B.length) (res : List BooData)
    (h : getFlipBOOs pos B bonds = .ok res) (p : Nat) (hp : p < B.length)
    (ht : ∀ o, Bond.mk' p o ∈ bonds → NonNull B p → NonNull B o → turned pos B p o = .ok B[p]) :
    res[p]? = some B[p] := by
  obtain ⟨res', e, _, hv⟩ := C85_flip pos B bonds hB hpos hs hb
  have : res' = res := by rw [h] at e; exact (Except.ok.inj e).symm
  subst res'
  obtain ⟨os, rs, _, hm, hr, hval⟩ := hv p hp
  have hrs : rs = List.replicate os.length B[p] := by
    have : ∀ (os : List Nat) (rs : List BooData), (∀ o ∈ os, turned pos B p o = .ok B[p]) →
        os.mapM (turned pos B p) = .ok rs → rs = List.replicate os.length B[p] := by
      intro os
      induction os with
      | nil => intro rs _ h; exact (Except.ok.inj h).symm
      | cons o os ih =>
        intro rs ho h
        rw [List.mapM_cons, ho o (by simp), ok_bind] at h
        cases h3 : os.mapM (turned pos B p) with
        | error e => rw [h3] at h; exact absurd h (by simp [error_bind])
        | ok rs' =>
          rw [h3, ok_bind] at h
          have : rs = B[p] :: rs' := (Except.ok.inj h).symm
          rw [this, ih rs' (fun x hx => ho x (by simp [hx])) h3]
          rfl
    refine this os rs ?_ hr
    intro o ho
    obtain ⟨h1, h2, h3⟩ := (hm o).1 ho
    exact ht o h1 h2 h3
  rw [hval, hrs]
  refine congrArg some ?_
  unfold averageWith
  rw [List.length_replicate]
  have key : ∀ k : Nat, (List.replicate k B[p]).foldl (fun s r => List.zipWith (· + ·) s r) B[p]
      = B[p].map (fun z => ((1 + k : Nat) : ℂ) * z) := by
    intro k
    induction k with
    | zero => simp
    | succ k ih =>
      rw [List.replicate_succ', List.foldl_append, ih, List.foldl_cons, List.foldl_nil]
      apply List.ext_getElem?
      intro i
      simp only [List.getElem?_zipWith, List.getElem?_map]
      cases B[p][i]? with
      | none => rfl
      | some z =>
        simp
        ring
  rw [key, List.map_map]
  conv_rhs => rw [← List.map_id B[p]]
  apply List.map_congr_left
  intro z _
  have : ((1 + os.length : Nat) : ℂ) ≠ 0 := by exact_mod_cast (by omega : 1 + os.length ≠ 0)
  show ((1 + os.length : Nat) : ℂ) * z / ((1 + os.length : Nat) : ℂ) = z
  field_simp

theorem ez_ne : (![0, 0, 1] : Fin 3 → ℝ) ≠ 0 := by
  intro h; have := congrFun h 2; simp [vec_two] at this

/-- Two particles bonded to each other and which tensors are the ones of their own bond. -/
example (q : BooData) (h : ofBond ![0, 0, 1] = .ok q) :
    ∃ res, getFlipBOOs [![0, 0, 0], ![0, 0, 1]] [q, q] [⟨0, 1⟩] = .ok res ∧ res.length = 2 := by
  have hq := ofBond_len h
  obtain ⟨res, e, hl, _⟩ := C85_flip [![0, 0, 0], ![0, 0, 1]] [q, q] [⟨0, 1⟩]
    (by intro p hp; simp at hp; rw [hp]; exact hq) rfl (by simp [IsBondSet])
    (by intro b hb; simp at hb; rw [hb]; simp [Bond.low, Bond.high])
  exact ⟨res, e, hl⟩

/-- These two particles are twins of each other. -/
example (q : BooData) (h : ofBond ![0, 0, 1] = .ok q) (res : List BooData)
    (e : getFlipBOOs [![0, 0, 0], ![0, 0, 1]] [q, q] [⟨0, 1⟩] = .ok res) : res[0]? = some q := by
  have hq := ofBond_len h
  refine C85_twin [![0, 0, 0], ![0, 0, 1]] [q, q] [⟨0, 1⟩]
    (by intro p hp; simp at hp; rw [hp]; exact hq) rfl (by simp [IsBondSet])
    (by intro b hb; simp at hb; rw [hb]; simp [Bond.low, Bond.high]) res e 0 (by simp) ?_
  intro o ho _ _
  have ho1 : o = 1 := by
    simp only [Bond.mk', List.mem_singleton] at ho
    split at ho
    · exact congrArg Bond.second ho
    · have := congrArg Bond.second ho; simp at this
  subst ho1
  obtain ⟨p, p', e1, e2, e3⟩ := C82_half_turn ![0, 0, 1] ![0, 0, 1] ez_ne ez_ne
  have : p = q := by rw [h] at e1; exact (Except.ok.inj e1).symm
  subst p
  have hh : halfTurn ![0, 0, 1] ![0, 0, 1] = ![0, 0, 1] := by
    funext i
    unfold halfTurn
    fin_cases i <;> norm_num [vec_two]
  rw [hh, h] at e2
  have : p' = q := (Except.ok.inj e2).symm
  subst p'
  have hd : (fun i => (![0, 0, 1] : Fin 3 → ℝ) i - (![0, 0, 0] : Fin 3 → ℝ) i) = ![0, 0, 1] := by
    funext i
    fin_cases i <;> norm_num [vec_two]
  have g1 : getR [q, q] 1 = .ok q := getR_ok.2 rfl
  have g2 : getR [(![0, 0, 0] : Fin 3 → ℝ), ![0, 0, 1]] 0 = .ok ![0, 0, 0] := getR_ok.2 rfl
  have g3 : getR [(![0, 0, 0] : Fin 3 → ℝ), ![0, 0, 1]] 1 = .ok ![0, 0, 1] := getR_ok.2 rfl
  unfold turned
  rw [g1, ok_bind, g2, ok_bind, g3, ok_bind, hd]
  exact e3

/-- With no bond at all. -/
example (q : BooData) (hq : q.length = 36) (res : List BooData)
    (e : getFlipBOOs [![0, 0, 0]] [q] [] = .ok res) : res[0]? = some q :=
  C85_alone [![0, 0, 0]] [q] [] (by intro p hp; simp at hp; rw [hp]; exact hq) rfl
    (by simp [IsBondSet]) (by simp) res e 0 (by simp) (by simp)

end Boo
end Colloids
