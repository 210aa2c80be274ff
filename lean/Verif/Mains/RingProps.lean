import Verif.Mains.RingModel
import Verif.Bonds.Lemmas
import Verif.Dyn.Lemmas
import Mathlib.Data.List.FinRange
import Mathlib.Data.Fintype.Basic
import Mathlib.Tactic.FinCases

/-! # C105: the clusters of mains/sp5c.cpp are the bonds surrounded by a ring of five -/

namespace Colloids
namespace Mains

/-- Two particles are bonded. -/
def Bonded (bonds : List Bond) (x y : Nat) : Prop :=
  ∃ b ∈ bonds, (b.first = x ∧ b.second = y) ∨ (b.first = y ∧ b.second = x)

instance (bonds : List Bond) (x y : Nat) : Decidable (Bonded bonds x y) := by
  unfold Bonded; infer_instance

/-- `ring` is a pentagon around the bond `b`: five different particles, those bonded to both ends of
`b`, each bonded to the one before it and to the one after it and to no other of the five. -/
def Pentagon (bonds : List Bond) (b : Bond) (ring : List Nat) : Prop :=
  ring.length = 5 ∧ ring.Nodup ∧
  (∀ x, x ∈ ring ↔ Bonded bonds b.first x ∧ Bonded bonds b.second x) ∧
  ∀ (i j : Nat) (x y : Nat), ring[i]? = some x → ring[j]? = some y →
    (Bonded bonds x y ↔ j = (i + 1) % 5 ∨ i = (j + 1) % 5)

/-! ### The walk on five vertices -/

theorem frontR_map (f : α → β) (l : List α) : frontR (l.map f) = (frontR l).map f := by
  cases l <;> rfl

theorem backR_map (f : α → β) (l : List α) : backR (l.map f) = (backR l).map f := by
  unfold backR
  rw [List.getLast?_map]
  cases l.getLast? <;> rfl

theorem ringNext_map [DecidableEq α] [DecidableEq β] {f : α → β} (hf : Function.Injective f)
    {ngb : α → List α} {ngb' : β → List β} (h : ∀ a, ngb' (f a) = (ngb a).map f) (p c : α) :
    ringNext ngb' (f p) (f c) = (ringNext ngb p c).map f := by
  unfold ringNext
  rw [h, frontR_map, backR_map]
  cases hx : frontR (ngb c) with
  | error e => rfl
  | ok a =>
    simp only [Except.map, ok_bind, hf.ne_iff]
    split <;> rfl

theorem ringWalk_map [DecidableEq α] [DecidableEq β] {f : α → β} (hf : Function.Injective f)
    {ngb : α → List α} {ngb' : β → List β} (h : ∀ a, ngb' (f a) = (ngb a).map f) (last : α) :
    ∀ (fuel : Nat) (p c : α), ringWalk ngb' (f last) fuel (f p) (f c) =
      (ringWalk ngb last fuel p c).map (List.map f) := by
  intro fuel
  induction fuel with
  | zero => intro p c; rfl
  | succ fuel ih =>
    intro p c
    unfold ringWalk
    rw [ringNext_map hf h]
    cases hx : ringNext ngb p c with
    | error e => rfl
    | ok a =>
      simp only [Except.map, ok_bind, hf.ne_iff]
      split
      · rw [ih]
        cases ringWalk ngb last fuel c a <;> rfl
      · rfl

theorem ringOrder_map [DecidableEq α] [DecidableEq β] {f : α → β} (hf : Function.Injective f)
    {ngb : α → List α} {ngb' : β → List β} (h : ∀ a, ngb' (f a) = (ngb a).map f) (fuel : Nat)
    (common : List α) :
    ringOrder fuel ngb' (common.map f) = (ringOrder fuel ngb common).map (List.map f) := by
  unfold ringOrder
  rw [frontR_map]
  cases frontR common with
  | error e => rfl
  | ok c =>
    simp only [Except.map, ok_bind, h, backR_map]
    cases backR (ngb c) with
    | error e => rfl
    | ok last =>
      simp only [ok_bind, ringWalk_map hf h]
      cases ringWalk ngb last fuel last c with
      | error e => rfl
      | ok l => simp [Except.map, List.map_dropLast]

/-- More fuel does not change the outcome. -/
theorem ringWalk_mono [DecidableEq α] {ngb : α → List α} {last : α} :
    ∀ {fuel : Nat} {p c : α} {l : List α}, ringWalk ngb last fuel p c = .ok l →
      ∀ {fuel' : Nat}, fuel ≤ fuel' → ringWalk ngb last fuel' p c = .ok l := by
  intro fuel
  induction fuel with
  | zero => intro p c l h; simp [ringWalk] at h
  | succ fuel ih =>
    intro p c l h fuel' hle
    obtain ⟨k, rfl⟩ : ∃ k, fuel' = k + 1 := ⟨fuel' - 1, by omega⟩
    unfold ringWalk at h ⊢
    rw [bind_ok] at h ⊢
    obtain ⟨next, h1, h2⟩ := h
    refine ⟨next, h1, ?_⟩
    split
    · rw [if_pos (by assumption), bind_ok] at h2
      obtain ⟨rest, h3, h4⟩ := h2
      rw [ih h3 (by omega)]
      exact h4
    · rw [if_neg (by assumption)] at h2
      exact h2

theorem ringOrder_mono [DecidableEq α] {ngb : α → List α} {fuel fuel' : Nat} {common l : List α}
    (h : ringOrder fuel ngb common = .ok l) (hle : fuel ≤ fuel') :
    ringOrder fuel' ngb common = .ok l := by
  unfold ringOrder at h ⊢
  rw [bind_ok] at h ⊢
  obtain ⟨c, h1, h2⟩ := h
  rw [bind_ok] at h2
  obtain ⟨last, h2, h3⟩ := h2
  rw [bind_ok] at h3
  obtain ⟨p, h3, h4⟩ := h3
  refine ⟨c, h1, ?_⟩
  rw [h2, ok_bind, ringWalk_mono h3 hle]
  exact h4

/-- The graph on five vertices given by its ten possible edges. -/
def five (a b c d e f g h i j : Bool) (x y : Fin 5) : Bool :=
  match x, y with
  | 0, 1 => a | 1, 0 => a
  | 0, 2 => b | 2, 0 => b
  | 0, 3 => c | 3, 0 => c
  | 0, 4 => d | 4, 0 => d
  | 1, 2 => e | 2, 1 => e
  | 1, 3 => f | 3, 1 => f
  | 1, 4 => g | 4, 1 => g
  | 2, 3 => h | 3, 2 => h
  | 2, 4 => i | 4, 2 => i
  | 3, 4 => j | 4, 3 => j
  | _, _ => false

def fiveNgb (A : Fin 5 → Fin 5 → Bool) (x : Fin 5) : List (Fin 5) := [0, 1, 2, 3, 4].filter (A x)

/-- A cycle through the five vertices, without chord. -/
def fiveCycle (A : Fin 5 → Fin 5 → Bool) (l : List (Fin 5)) : Bool :=
  l.length == 5 && decide l.Nodup && (List.range 5).all fun i => (List.range 5).all fun j =>
    (A (l.getD i 0) (l.getD j 0)) == (decide (j = (i + 1) % 5) || decide (i = (j + 1) % 5))

def fiveOk (A : Fin 5 → Fin 5 → Bool) : Bool :=
  !([0, 1, 2, 3, 4].all fun x => (fiveNgb A x).length == 2) ||
    match ringOrder 5 (fiveNgb A) [0, 1, 2, 3, 4] with
    | .ok l => fiveCycle A l
    | .error _ => false

/-- All the graphs on five vertices. -/
theorem five_all : ∀ a b c d e f g h i j : Bool, fiveOk (five a b c d e f g h i j) = true := by
  decide +kernel

theorem five_eta {A : Fin 5 → Fin 5 → Bool} (hs : ∀ x y, A x y = A y x) (hi : ∀ x, A x x = false) :
    five (A 0 1) (A 0 2) (A 0 3) (A 0 4) (A 1 2) (A 1 3) (A 1 4) (A 2 3) (A 2 4) (A 3 4) = A := by
  funext x y
  fin_cases x <;> fin_cases y <;> simp [five, hi] <;> exact hs _ _

/-- On five vertices, each linked to two others, the walk goes round a cycle. -/
theorem five_walk {A : Fin 5 → Fin 5 → Bool} (hs : ∀ x y, A x y = A y x) (hi : ∀ x, A x x = false)
    (hd : ∀ x, (fiveNgb A x).length = 2) :
    ∃ l, ringOrder 5 (fiveNgb A) [0, 1, 2, 3, 4] = .ok l ∧ l.length = 5 ∧ l.Nodup ∧
      ∀ (i j : Nat) (x y : Fin 5), l[i]? = some x → l[j]? = some y →
        (A x y = true ↔ j = (i + 1) % 5 ∨ i = (j + 1) % 5) := by
  have h := five_all (A 0 1) (A 0 2) (A 0 3) (A 0 4) (A 1 2) (A 1 3) (A 1 4) (A 2 3) (A 2 4) (A 3 4)
  rw [five_eta hs hi] at h
  unfold fiveOk at h
  have hd' : ([0, 1, 2, 3, 4].all fun x => (fiveNgb A x).length == 2) = true := by
    simp [hd]
  rw [hd'] at h
  cases hw : ringOrder 5 (fiveNgb A) [0, 1, 2, 3, 4] with
  | error e => rw [hw] at h; simp at h
  | ok l =>
    rw [hw] at h
    simp only [Bool.not_true, Bool.false_or] at h
    unfold fiveCycle at h
    simp only [Bool.and_eq_true, List.all_eq_true, List.mem_range, beq_iff_eq, decide_eq_true_eq] at h
    obtain ⟨⟨h1, h2⟩, h3⟩ := h
    refine ⟨l, rfl, h1, h2, ?_⟩
    intro i j x y hx hy
    obtain ⟨hi', ex⟩ := List.getElem?_eq_some_iff.1 hx
    obtain ⟨hj', ey⟩ := List.getElem?_eq_some_iff.1 hy
    have := h3 i (by omega) j (by omega)
    rw [List.getD_eq_getElem?_getD, List.getD_eq_getElem?_getD, hx, hy] at this
    simp only [Option.getD_some] at this
    rw [this]
    simp

/-! ### From five particles to the five vertices -/

theorem Bonded.symm {bonds : List Bond} {x y : Nat} (h : Bonded bonds x y) : Bonded bonds y x := by
  obtain ⟨b, hb, h⟩ := h
  exact ⟨b, hb, h.symm⟩

theorem bonded_iff_row {bonds : List Bond} {x y : Nat} :
    y ∈ bondRow x bonds ↔ Bonded bonds x y := by
  rw [mem_bondRow]
  unfold Bonded Bond.low Bond.high
  constructor
  · rintro ⟨b, hb, h | h⟩
    · exact ⟨b, hb, .inl h⟩
    · exact ⟨b, hb, .inr ⟨h.2, h.1⟩⟩
  · rintro ⟨b, hb, h | h⟩
    · exact ⟨b, hb, .inl h⟩
    · exact ⟨b, hb, .inr ⟨h.2, h.1⟩⟩

theorem sortedNat_ext {l l' : List Nat} (h : l.Pairwise (· < ·)) (h' : l'.Pairwise (· < ·))
    (he : ∀ x, x ∈ l ↔ x ∈ l') : l = l' :=
  sortedBy_ext (fun a => Nat.lt_irrefl a) (fun _ _ _ => Nat.lt_trans) h h' he

theorem setIntersection_filter {l l' : List Nat} (h : l.Pairwise (· < ·)) (h' : l'.Pairwise (· < ·))
    {q : Nat → Prop} [DecidablePred q] (hq : ∀ x, x ∈ l ↔ q x) :
    Boo.setIntersection l l' = l'.filter (fun x => decide (q x)) := by
  refine sortedNat_ext (Dyn.setIntersection_sorted h) (h'.filter _) ?_
  intro x
  rw [Dyn.mem_setIntersection' h h', List.mem_filter, hq]
  simp [and_comm]

theorem lookup_map_self (f : Nat → List Nat) {l : List Nat} {x : Nat} (h : x ∈ l) :
    (l.map fun c => (c, f c)).lookup x = some (f x) := by
  induction l with
  | nil => simp at h
  | cons a l ih =>
    rw [List.map_cons, List.lookup_cons]
    by_cases e : x = a
    · subst e; simp
    · rw [beq_false_of_ne e]
      exact ih (by simpa [e] using h)

/-- The program, once the neighbours of each particle are known, on five common neighbours. -/
theorem ring_of_five {bonds : List Bond} (hs : IsBondSet bonds) (hne : ∀ b ∈ bonds, b.first < b.second)
    {common : List Nat} (hc : common.Pairwise (· < ·)) (h5 : common.length = 5)
    {ngb : Nat → List Nat}
    (hn : ∀ x ∈ common, ngb x = common.filter (fun y => decide (Bonded bonds x y)))
    (hd : ∀ x ∈ common, (ngb x).length = 2) {fuel : Nat} (hf : 5 ≤ fuel) :
    ∃ l, ringOrder fuel ngb common = .ok l ∧ l.length = 5 ∧ l.Nodup ∧ (∀ x, x ∈ l ↔ x ∈ common) ∧
      ∀ (i j : Nat) (x y : Nat), l[i]? = some x → l[j]? = some y →
        (Bonded bonds x y ↔ j = (i + 1) % 5 ∨ i = (j + 1) % 5) := by
  have hinj : Function.Injective (fun i : Fin 5 => common[i.val]'(by omega)) := by
    intro i j hij
    have hnd : common.Nodup := hc.imp (fun h => Nat.ne_of_lt h)
    have := (List.Nodup.getElem_inj_iff hnd).1 hij
    exact Fin.ext this
  obtain ⟨c, hcdef⟩ : ∃ c : Fin 5 → Nat, c = fun i : Fin 5 => common[i.val]'(by omega) := ⟨_, rfl⟩
  rw [← hcdef] at hinj
  have hmap : common = [(0 : Fin 5), 1, 2, 3, 4].map c := by
    rw [hcdef]
    match common, h5 with
    | [a, b, c, d, e], _ => rfl
  have hmem : ∀ i, c i ∈ common := by
    intro i; rw [hcdef]; exact List.getElem_mem _
  obtain ⟨A, hA⟩ : ∃ A : Fin 5 → Fin 5 → Bool, A = fun i j => decide (Bonded bonds (c i) (c j)) := ⟨_, rfl⟩
  have hAs : ∀ x y, A x y = A y x := by
    intro x y; rw [hA]
    exact decide_eq_decide.2 ⟨Bonded.symm, Bonded.symm⟩
  have hAi : ∀ x, A x x = false := by
    intro x; rw [hA]
    simp only [decide_eq_false_iff_not]
    rintro ⟨b, hb, h | h⟩ <;> · have := hne b hb; omega
  have hcm : ∀ i, ngb (c i) = (fiveNgb A i).map c := by
    intro i
    rw [hn _ (hmem i)]
    conv_lhs => rw [hmap]
    rw [List.filter_map]
    unfold fiveNgb
    rw [hA]
    rfl
  have hdeg : ∀ i, (fiveNgb A i).length = 2 := by
    intro i
    have := hd _ (hmem i)
    rw [hcm] at this
    simpa using this
  obtain ⟨l, h1, h2, h3, h4⟩ := five_walk hAs hAi hdeg
  have hall : ∀ i, i ∈ l := by
    have hnd : l.toFinset.card = 5 := by rw [List.toFinset_card_of_nodup h3, h2]
    have : l.toFinset = Finset.univ := by
      rw [← Finset.card_eq_iff_eq_univ]; simpa using hnd
    intro i
    have := Finset.mem_univ i
    rw [← ‹l.toFinset = Finset.univ›] at this
    simpa using this
  refine ⟨l.map c, ?_, by simpa using h2, h3.map hinj, ?_, ?_⟩
  · refine ringOrder_mono ?_ hf
    conv_lhs => rw [hmap]
    rw [ringOrder_map hinj hcm, h1]
    rfl
  · intro x
    rw [List.mem_map]
    constructor
    · rintro ⟨i, -, rfl⟩; exact hmem i
    · intro hx
      rw [hmap, List.mem_map] at hx
      obtain ⟨i, -, rfl⟩ := hx
      exact ⟨i, hall i, rfl⟩
  · intro i j x y hx hy
    rw [List.getElem?_map, Option.map_eq_some_iff] at hx hy
    obtain ⟨x', hx, rfl⟩ := hx
    obtain ⟨y', hy, rfl⟩ := hy
    rw [← h4 i j x' y' hx hy, hA]
    simp

theorem filter_length_pair {l : List Nat} (hl : l.Nodup) {q : Nat → Bool} {a b : Nat} (ha : a ∈ l)
    (hb : b ∈ l) (hab : a ≠ b) (hq : ∀ x ∈ l, q x = true ↔ x = a ∨ x = b) : (l.filter q).length = 2 := by
  have hp : (l.filter q).Perm [a, b] := by
    refine (List.perm_ext_iff_of_nodup (hl.filter _) (by simp [hab])).2 ?_
    intro x
    rw [List.mem_filter]
    constructor
    · rintro ⟨h1, h2⟩; simpa using (hq x h1).1 h2
    · intro h
      have h' : x = a ∨ x = b := by simpa using h
      have hx : x ∈ l := by rcases h' with rfl | rfl <;> assumption
      exact ⟨hx, (hq x hx).2 h'⟩
  simpa using hp.length_eq

/-- Each particle of a pentagon has two neighbours in it. -/
theorem pentagon_degree {bonds : List Bond} {b : Bond} {ring : List Nat} (h : Pentagon bonds b ring)
    {common : List Nat} (hc : common.Nodup) (hm : ∀ x, x ∈ common ↔ x ∈ ring) {x : Nat} (hx : x ∈ ring) :
    (common.filter (fun y => decide (Bonded bonds x y))).length = 2 := by
  obtain ⟨h5, hnd, -, hadj⟩ := h
  obtain ⟨i, hi, rfl⟩ := List.getElem_of_mem hx
  have ha : (i + 1) % 5 < ring.length := by omega
  have hb : (i + 4) % 5 < ring.length := by omega
  refine filter_length_pair hc (a := ring[(i + 1) % 5]) (b := ring[(i + 4) % 5])
    ((hm _).2 (List.getElem_mem _)) ((hm _).2 (List.getElem_mem _)) ?_ ?_
  · intro he
    have := (List.Nodup.getElem_inj_iff hnd).1 he
    omega
  · intro y hy
    obtain ⟨j, hj, rfl⟩ := List.getElem_of_mem ((hm y).1 hy)
    rw [decide_eq_true_eq, hadj i j _ _ (List.getElem?_eq_getElem hi) (List.getElem?_eq_getElem hj),
      List.Nodup.getElem_inj_iff hnd, List.Nodup.getElem_inj_iff hnd]
    omega

/-! ### One bond, all the bonds -/

open Classical in
/-- The list `sp5c` and the counts after one more bond. -/
theorem sp5cStep_ok {n fuel : Nat} {bonds : List Bond} (hs : IsBondSet bonds)
    (hb : ∀ b ∈ bonds, b.first < b.second ∧ b.second < n) (hf : 5 ≤ fuel) {ngbs : NgbList}
    (hn : ∀ p : Nat, p < n → ngbs[p]? = some (bondRow p bonds)) {b : Bond} (hbm : b ∈ bonds)
    (out counts : List Nat) (hc : counts.length = n) :
    if ∃ ring, Pentagon bonds b ring then
      ∃ ring, Pentagon bonds b ring ∧ sp5cStep fuel ngbs (out, counts) b =
        .ok (out ++ b.first :: b.second :: ring, (counts.modify b.first (· + 1)).modify b.second (· + 1))
    else sp5cStep fuel ngbs (out, counts) b = .ok (out, counts) := by
  have hlt := hb b hbm
  have hne : ∀ b ∈ bonds, b.low < b.high := fun b h => (hb b h).1
  have hsort : ∀ p, (bondRow p bonds).Pairwise (· < ·) := fun p => bondRow_sorted hs hne
  have e1 : getR ngbs b.low = .ok (bondRow b.first bonds) :=
    getR_ok.2 (hn _ (by unfold Bond.low; omega))
  have e2 : getR ngbs b.high = .ok (bondRow b.second bonds) :=
    getR_ok.2 (hn _ (by unfold Bond.high; omega))
  obtain ⟨common, hcom⟩ : ∃ common, common =
    Boo.setIntersection (bondRow b.first bonds) (bondRow b.second bonds) := ⟨_, rfl⟩
  have hcs : common.Pairwise (· < ·) := by
    rw [hcom]; exact Dyn.setIntersection_sorted (hsort _)
  have hcm : ∀ x, x ∈ common ↔ Bonded bonds b.first x ∧ Bonded bonds b.second x := by
    intro x
    rw [hcom, Dyn.mem_setIntersection' (hsort _) (hsort _), bonded_iff_row, bonded_iff_row]
  have hnd : common.Nodup := hcs.imp (fun h => Nat.ne_of_lt h)
  have hcn : ∀ x ∈ common, x < n := by
    intro x hx
    obtain ⟨b', hb', h⟩ := ((hcm x).1 hx).1
    have := hb b' hb'
    omega
  obtain ⟨rn, hrn⟩ : ∃ rn : Nat → List Nat, rn = fun c =>
    common.filter (fun y => decide (Bonded bonds c y)) := ⟨_, rfl⟩
  have hring : ringNgbs ngbs common = .ok (common.map fun c => (c, rn c)) := by
    unfold ringNgbs
    refine TreeIndex.mapM_ok_of _ _ _ ?_
    intro c hc
    rw [getR_ok.2 (hn c (hcn c hc)), ok_bind, pure_eq_ok, hrn]
    rw [setIntersection_filter (hsort c) hcs (fun x => bonded_iff_row)]
  have hat : ∀ x ∈ common, ringAt (common.map fun c => (c, rn c)) x = rn x := by
    intro x hx
    unfold ringAt
    rw [lookup_map_self _ hx]
    rfl
  unfold sp5cStep
  rw [e1, ok_bind, e2, ok_bind, ← hcom]
  dsimp only
  rw [hring]
  by_cases h5 : common.length = 5
  · rw [if_pos h5, ok_bind]
    by_cases hdeg : ∀ x ∈ common, (rn x).length = 2
    · have hall : ((common.map fun c => (c, rn c)).all fun r => decide (r.2.length = 2)) = true := by
        simpa using hdeg
      obtain ⟨l, hl, hl5, hlnd, hlm, hladj⟩ := ring_of_five hs (fun b h => (hb b h).1) hcs h5
        (ngb := ringAt (common.map fun c => (c, rn c)))
        (fun x hx => by rw [hat x hx, hrn]) (fun x hx => by rw [hat x hx]; exact hdeg x hx) hf
      have hpent : Pentagon bonds b l := ⟨hl5, hlnd, fun x => by rw [hlm, hcm], hladj⟩
      rw [if_pos ⟨l, hpent⟩]
      refine ⟨l, hpent, ?_⟩
      rw [if_pos hall]
      unfold modifyR
      rw [if_pos (by unfold Bond.low; omega), ok_bind,
        if_pos (by rw [List.length_modify]; unfold Bond.high; omega), ok_bind, hl, ok_bind]
      rfl
    · have hall : ¬ ((common.map fun c => (c, rn c)).all fun r => decide (r.2.length = 2)) = true := by
        simpa using hdeg
      rw [if_neg hall, if_neg]
      · rfl
      · rintro ⟨ring, hp⟩
        refine hdeg ?_
        intro x hx
        have hm : ∀ x, x ∈ common ↔ x ∈ ring := fun x => by rw [hcm, hp.2.2.1]
        have := pentagon_degree hp hnd hm ((hm x).1 hx)
        rw [hrn]
        convert this
  · rw [if_neg h5, if_neg]
    · rfl
    · rintro ⟨ring, hp⟩
      refine h5 ?_
      have hperm : common.Perm ring :=
        (List.perm_ext_iff_of_nodup hnd hp.2.1).2 (fun x => by rw [hcm, hp.2.2.1])
      rw [hperm.length_eq, hp.1]

open Classical in
/-- **C105** On a file of bonds between different particles the program ends; the list it writes is the
concatenation, over the bonds which have a pentagon around them, in order, of the two ends of the bond and
of a pentagon around it; the count it writes for a particle is the number of such bonds it is an end of. -/
theorem C105_rings {n fuel : Nat} {bonds : List Bond} (hs : IsBondSet bonds)
    (hb : ∀ b ∈ bonds, b.first < b.second ∧ b.second < n) (hf : 5 ≤ fuel) :
    ∃ (rings : List (Bond × List Nat)) (counts : List Nat),
      sp5c fuel n bonds = .ok (rings.flatMap (fun r => r.1.first :: r.1.second :: r.2), counts) ∧
      rings.map Prod.fst = bonds.filter (fun b => decide (∃ ring, Pentagon bonds b ring)) ∧
      (∀ r ∈ rings, Pentagon bonds r.1 r.2) ∧
      counts.length = n ∧
      ∀ p : Nat, p < n → counts[p]? = some (bonds.filter (fun b =>
        decide ((b.first = p ∨ b.second = p) ∧ ∃ ring, Pentagon bonds b ring))).length := by
  obtain ⟨ngbs, h1, -, hn⟩ := makeNgbList_ok (n := n) (bs := bonds)
    (fun b h => by have := hb b h; unfold Bond.low Bond.high; omega)
  unfold sp5c
  rw [h1, ok_bind]
  have key : ∀ (bs : List Bond), (∀ b ∈ bs, b ∈ bonds) → ∀ (out counts : List Nat), counts.length = n →
      ∃ (rings : List (Bond × List Nat)) (counts' : List Nat),
      bs.foldlM (sp5cStep fuel ngbs) (out, counts) =
        .ok (out ++ rings.flatMap (fun r => r.1.first :: r.1.second :: r.2), counts') ∧
      rings.map Prod.fst = bs.filter (fun b => decide (∃ ring, Pentagon bonds b ring)) ∧
      (∀ r ∈ rings, Pentagon bonds r.1 r.2) ∧
      counts'.length = n ∧
      ∀ (p c : Nat), counts[p]? = some c → counts'[p]? = some (c + (bs.filter (fun b =>
        decide ((b.first = p ∨ b.second = p) ∧ ∃ ring, Pentagon bonds b ring))).length) := by
    intro bs
    induction bs with
    | nil =>
      intro _ out counts hc
      exact ⟨[], counts, by simp, by simp, by simp, hc, fun p c h => by simpa using h⟩
    | cons b bs ih =>
      intro hsub out counts hc
      have hstep := sp5cStep_ok hs hb hf hn (hsub b (by simp)) out counts hc
      have hbb := hb b (hsub b (by simp))
      by_cases hp : ∃ ring, Pentagon bonds b ring
      · rw [if_pos hp] at hstep
        obtain ⟨ring, hpr, hst⟩ := hstep
        obtain ⟨rings, counts', g1, g2, g3, g4, g5⟩ := ih (fun b h => hsub b (by simp [h]))
          (out ++ b.first :: b.second :: ring)
          ((counts.modify b.first (· + 1)).modify b.second (· + 1)) (by simpa using hc)
        refine ⟨(b, ring) :: rings, counts', ?_, ?_, ?_, g4, ?_⟩
        · rw [List.foldlM_cons, hst, ok_bind, g1]
          simp
        · rw [List.map_cons, g2, List.filter_cons_of_pos (by simpa using hp)]
        · intro r hr
          rcases List.mem_cons.1 hr with rfl | hr
          · exact hpr
          · exact g3 r hr
        · intro p c hpc
          have := g5 p (c + if b.first = p ∨ b.second = p then 1 else 0) (by
            rw [List.getElem?_modify, List.getElem?_modify, hpc]
            have := hbb.1
            by_cases e1 : b.first = p <;> by_cases e2 : b.second = p
            · omega
            all_goals simp [e1, e2])
          rw [this]
          by_cases e : b.first = p ∨ b.second = p
          · rw [if_pos e, List.filter_cons_of_pos (by simpa using ⟨e, hp⟩), List.length_cons]
            congr 1; omega
          · rw [if_neg e, List.filter_cons_of_neg (by simp [e])]
            rfl
      · rw [if_neg hp] at hstep
        obtain ⟨rings, counts', g1, g2, g3, g4, g5⟩ := ih (fun b h => hsub b (by simp [h])) out counts hc
        refine ⟨rings, counts', ?_, ?_, g3, g4, ?_⟩
        · rw [List.foldlM_cons, hstep, ok_bind, g1]
        · rw [g2, List.filter_cons_of_neg (by simpa using hp)]
        · intro p c hpc
          rw [g5 p c hpc, List.filter_cons_of_neg (by simp only [decide_eq_true_eq]; exact fun h => hp h.2)]
  obtain ⟨rings, counts', g1, g2, g3, g4, g5⟩ := key bonds (fun b h => h) [] (List.replicate n 0) (by simp)
  refine ⟨rings, counts', by simpa using g1, g2, g3, g4, ?_⟩
  intro p hp
  have := g5 p 0 (by simp [List.getElem?_replicate, hp])
  rw [this, Nat.zero_add]

/-- The bond 0-1 in the ring 2-4-6-3-5, and a particle more. -/
def spindleBonds : List Bond :=
  [⟨0, 1⟩, ⟨0, 2⟩, ⟨0, 3⟩, ⟨0, 4⟩, ⟨0, 5⟩, ⟨0, 6⟩, ⟨1, 2⟩, ⟨1, 3⟩, ⟨1, 4⟩, ⟨1, 5⟩, ⟨1, 6⟩, ⟨1, 7⟩,
    ⟨2, 4⟩, ⟨2, 5⟩, ⟨3, 5⟩, ⟨3, 6⟩, ⟨4, 6⟩]

example : IsBondSet spindleBonds ∧ (∀ b ∈ spindleBonds, b.first < b.second ∧ b.second < 8) ∧
    sp5c 5 8 spindleBonds = .ok ([0, 1, 2, 4, 6, 3, 5], [1, 1, 0, 0, 0, 0, 0, 0]) ∧
    Pentagon spindleBonds ⟨0, 1⟩ [2, 4, 6, 3, 5] := by
  refine ⟨by unfold IsBondSet; decide +kernel, by decide +kernel, by decide +kernel, rfl,
    by decide +kernel, ?_, ?_⟩
  · intro x
    constructor
    · intro h
      have : ∀ x ∈ [2, 4, 6, 3, 5], Bonded spindleBonds 0 x ∧ Bonded spindleBonds 1 x := by decide +kernel
      exact this x h
    · rintro ⟨⟨b, hb, h⟩, ⟨b', hb', h'⟩⟩
      have : ∀ b ∈ spindleBonds, ∀ b' ∈ spindleBonds, ∀ x : Nat, x < 8 →
        (b.first = 0 ∧ b.second = x ∨ b.first = x ∧ b.second = 0) →
        (b'.first = 1 ∧ b'.second = x ∨ b'.first = x ∧ b'.second = 1) → x ∈ [2, 4, 6, 3, 5] := by
        decide +kernel
      have hx : x < 8 := by
        have : ∀ b ∈ spindleBonds, b.first < 8 ∧ b.second < 8 := by decide +kernel
        have := this b hb
        omega
      exact this b hb b' hb' x hx h h'
  · intro i j x y hx hy
    have : ∀ i : Nat, i < 5 → ∀ j : Nat, j < 5 → ∀ x ∈ [2, 4, 6, 3, 5][i]?, ∀ y ∈ [2, 4, 6, 3, 5][j]?,
        (Bonded spindleBonds x y ↔ j = (i + 1) % 5 ∨ i = (j + 1) % 5) := by decide +kernel
    obtain ⟨hi, -⟩ := List.getElem?_eq_some_iff.1 hx
    obtain ⟨hj, -⟩ := List.getElem?_eq_some_iff.1 hy
    exact this i hi j hj x hx y hy

/-- The bond 0-1 and the open chain 2-3-4-5-6, whose two ends are bonded to themselves. -/
def selfBonds : List Bond :=
  [⟨0, 1⟩, ⟨0, 2⟩, ⟨0, 3⟩, ⟨0, 4⟩, ⟨0, 5⟩, ⟨0, 6⟩, ⟨1, 2⟩, ⟨1, 3⟩, ⟨1, 4⟩, ⟨1, 5⟩, ⟨1, 6⟩,
    ⟨2, 2⟩, ⟨2, 3⟩, ⟨3, 4⟩, ⟨4, 5⟩, ⟨5, 6⟩, ⟨6, 6⟩]

/-- **C105**, why the bonds must be between different particles: `loadBonds` accepts a bond of a particle
with itself, and an open chain whose ends have such bonds is taken for a ring; the cluster written then has
five members only (the assertion of mains/sp5c.cpp:116 fails). -/
theorem C105_self_counterexample :
    sp5c 5 7 selfBonds = .ok ([0, 1, 2, 2, 3], [1, 1, 0, 0, 0, 0, 0]) := by
  decide +kernel

end Mains
end Colloids
