import Verif.Clusters.Model
import Verif.CommonLemmas
import Mathlib.Data.List.Nodup
import Mathlib.Data.List.Induction
import Mathlib.Logic.Relation
import Mathlib.Tactic.Tauto

/-! # Helper lemmas on cluster growth -/

namespace Colloids

theorem mem_setInsert {x y : Nat} {l : List Nat} : y ∈ setInsert x l ↔ y = x ∨ y ∈ l := by
  induction l with
  | nil => simp [setInsert]
  | cons a l ih =>
    simp only [setInsert]
    split
    · simp
    · split
      · rename_i h; subst h; simp
      · simp [ih]; tauto

theorem setInsert_sorted {x : Nat} {l : List Nat} (h : l.Pairwise (· < ·)) :
    (setInsert x l).Pairwise (· < ·) := by
  induction l with
  | nil => simp [setInsert]
  | cons a l ih =>
    obtain ⟨h1, h2⟩ := List.pairwise_cons.1 h
    simp only [setInsert]
    split
    · rename_i hlt
      refine List.pairwise_cons.2 ⟨?_, h⟩
      intro y hy
      rcases List.mem_cons.1 hy with rfl | hy
      · exact hlt
      · have := h1 y hy; omega
    · split
      · exact h
      · refine List.pairwise_cons.2 ⟨?_, ih h2⟩
        intro y hy
        rcases mem_setInsert.1 hy with rfl | hy
        · omega
        · exact h1 y hy

namespace Clusters

/-- `b` is a listed neighbour of `a`. -/
def Ngb (ngbs : NgbList) (a b : Nat) : Prop := ∃ row, ngbs[a]? = some row ∧ b ∈ row

/-- One step of a path inside `pop`. -/
def Step (ngbs : NgbList) (pop : List Nat) (a b : Nat) : Prop := Ngb ngbs a b ∧ b ∈ pop

/-- Result of growing from `center`. -/
structure Grown (ngbs : NgbList) (pop cl : List Nat) (center : Nat) (pop' cl' : List Nat) : Prop where
  sub : List.Sublist pop' pop
  mem : ∀ x, x ∈ cl' ↔ x ∈ cl ∨ (x ∈ pop ∧ x ∉ pop')
  reach : ∀ x, x ∈ pop → x ∉ pop' → Relation.TransGen (Step ngbs pop) center x
  center : ∀ y, Ngb ngbs center y → y ∉ pop'
  closed : ∀ x, x ∈ pop → x ∉ pop' → ∀ y, Ngb ngbs x y → y ∉ pop'
  sorted : cl.Pairwise (· < ·) → cl'.Pairwise (· < ·)

theorem transGen_mono {r r' : Nat → Nat → Prop} (h : ∀ a b, r a b → r' a b) {a b : Nat}
    (hr : Relation.TransGen r a b) : Relation.TransGen r' a b := by
  induction hr with
  | single h1 => exact .single (h _ _ h1)
  | tail _ h1 ih => exact ih.tail (h _ _ h1)

theorem reflTransGen_mono {r r' : Nat → Nat → Prop} (h : ∀ a b, r a b → r' a b) {a b : Nat}
    (hr : Relation.ReflTransGen r a b) : Relation.ReflTransGen r' a b := by
  induction hr with
  | refl => exact .refl
  | tail _ h1 ih => exact ih.tail (h _ _ h1)

theorem Step.mono {ngbs : NgbList} {p q : List Nat} (h : ∀ x, x ∈ p → x ∈ q) {a b : Nat}
    (hs : Relation.TransGen (Step ngbs p) a b) : Relation.TransGen (Step ngbs q) a b :=
  transGen_mono (fun _ _ hab => ⟨hab.1, h _ hab.2⟩) hs

theorem grow_ok (ngbs : NgbList) :
    ∀ (fuel : Nat) (pop cl : List Nat) (center : Nat), pop.Nodup → pop.length < fuel →
      center < ngbs.length → (∀ x ∈ pop, x < ngbs.length) →
      ∃ pop' cl', growCluster ngbs fuel pop cl center = .ok (pop', cl') ∧
        Grown ngbs pop cl center pop' cl' := by
  intro fuel
  induction fuel with
  | zero => intro pop cl center _ h; omega
  | succ fuel ih =>
    intro pop cl center hnd hlen hc hlt
    simp only [growCluster]
    rw [getR_of_lt hc, ok_bind]
    -- loop over a prefix of the neighbours
    have loop : ∀ ns : List Nat, (∀ n ∈ ns, Ngb ngbs center n) →
        ∃ pop' cl', ns.foldlM (growStep (growCluster ngbs fuel)) (pop, cl) = .ok (pop', cl') ∧
          List.Sublist pop' pop ∧ (∀ x, x ∈ cl' ↔ x ∈ cl ∨ (x ∈ pop ∧ x ∉ pop')) ∧
          (∀ x, x ∈ pop → x ∉ pop' → Relation.TransGen (Step ngbs pop) center x) ∧
          (∀ n ∈ ns, n ∉ pop') ∧
          (∀ x, x ∈ pop → x ∉ pop' → ∀ y, Ngb ngbs x y → y ∉ pop') ∧
          (cl.Pairwise (· < ·) → cl'.Pairwise (· < ·)) := by
      intro ns
      induction ns using List.reverseRecOn with
      | nil =>
        intro _
        refine ⟨pop, cl, rfl, List.Sublist.refl _, ?_, ?_, by simp, ?_, id⟩
        · intro x; tauto
        · intro x h1 h2; exact absurd h1 h2
        · intro x h1 h2; exact absurd h1 h2
      | append_singleton ns n ihn =>
        intro hns
        obtain ⟨p1, c1, h1, h2, h3, h4, h5, h6, h7⟩ := ihn (fun m hm => hns m (by simp [hm]))
        have hnn := hns n (by simp)
        by_cases hn : n ∈ p1
        · have hp1nd : p1.Nodup := hnd.sublist h2
          have hp1lt : ∀ x ∈ p1, x < ngbs.length := fun x hx => hlt x (h2.subset hx)
          have hmemer : ∀ x, x ∈ p1.erase n ↔ x ≠ n ∧ x ∈ p1 := fun x => hp1nd.mem_erase_iff
          obtain ⟨p2, c2, k1, k2⟩ := ih (p1.erase n) (setInsert n c1) n (hp1nd.erase n)
            (by
              have := List.length_erase_of_mem hn
              have := h2.length_le
              have := List.length_pos_of_mem hn
              omega)
            (hp1lt n hn) (fun x hx => hp1lt x ((hmemer x).1 hx).2)
          have hsub2 : List.Sublist p2 p1 := k2.sub.trans List.erase_sublist
          have hn2 : n ∉ p2 := fun h => ((hmemer n).1 (k2.sub.subset h)).1 rfl
          have hstepn : Relation.TransGen (Step ngbs pop) center n :=
            Relation.TransGen.single ⟨hnn, h2.subset hn⟩
          refine ⟨p2, c2, ?_, hsub2.trans h2, ?_, ?_, ?_, ?_, ?_⟩
          · rw [foldlM_append_ok]
            refine ⟨_, h1, ?_⟩
            simp only [List.foldlM_cons, List.foldlM_nil, growStep, if_pos hn, k1, ok_bind]
            rfl
          · intro x
            rw [k2.mem, mem_setInsert, h3, hmemer]
            constructor
            · rintro ((rfl | h | ⟨ha, hb⟩) | ⟨⟨ha, hb⟩, hc⟩)
              · exact .inr ⟨h2.subset hn, hn2⟩
              · exact .inl h
              · exact .inr ⟨ha, fun h => hb (hsub2.subset h)⟩
              · exact .inr ⟨h2.subset hb, hc⟩
            · rintro (h | ⟨ha, hb⟩)
              · exact .inl (.inr (.inl h))
              · by_cases hxn : x = n
                · exact .inl (.inl hxn)
                · by_cases hx1 : x ∈ p1
                  · exact .inr ⟨⟨hxn, hx1⟩, hb⟩
                  · exact .inl (.inr (.inr ⟨ha, hx1⟩))
          · intro x hx hx2
            by_cases hx1 : x ∈ p1
            · by_cases hxn : x = n
              · subst hxn; exact hstepn
              · have := k2.reach x ((hmemer x).2 ⟨hxn, hx1⟩) hx2
                exact hstepn.trans (Step.mono (fun y hy => h2.subset ((hmemer y).1 hy).2) this)
            · exact h4 x hx hx1
          · intro m hm
            rcases List.mem_append.1 hm with hm | hm
            · exact fun h => h5 m hm (hsub2.subset h)
            · simp only [List.mem_singleton] at hm; subst hm; exact hn2
          · intro x hx hx2 y hxy
            by_cases hx1 : x ∈ p1
            · by_cases hxn : x = n
              · subst hxn; exact k2.center y hxy
              · exact k2.closed x ((hmemer x).2 ⟨hxn, hx1⟩) hx2 y hxy
            · exact fun h => h6 x hx hx1 y hxy (hsub2.subset h)
          · intro hs; exact k2.sorted (setInsert_sorted (h7 hs))
        · refine ⟨p1, c1, ?_, h2, h3, h4, ?_, h6, h7⟩
          · rw [foldlM_append_ok]
            refine ⟨_, h1, ?_⟩
            simp only [List.foldlM_cons, List.foldlM_nil, growStep, if_neg hn, ok_bind]
            rfl
          · intro m hm
            rcases List.mem_append.1 hm with hm | hm
            · exact h5 m hm
            · simp only [List.mem_singleton] at hm; subst hm; exact hn
    have hrow : ngbs[center]? = some ngbs[center] := List.getElem?_eq_getElem hc
    obtain ⟨p', c', h1, h2, h3, h4, h5, h6, h7⟩ := loop ngbs[center] (fun n hn => ⟨_, hrow, hn⟩)
    refine ⟨p', c', h1, h2, h3, h4, ?_, h6, h7⟩
    rintro y ⟨row, hr, hy⟩
    rw [hrow] at hr; cases hr
    exact h5 y hy

/-- What is removed from the population is what can be reached from the centre. -/
theorem Grown.removed_iff {ngbs : NgbList} {pop cl pop' cl' : List Nat} {center : Nat}
    (h : Grown ngbs pop cl center pop' cl') (x : Nat) :
    (x ∈ pop ∧ x ∉ pop') ↔ Relation.TransGen (Step ngbs pop) center x := by
  constructor
  · rintro ⟨h1, h2⟩; exact h.reach x h1 h2
  · intro hr
    induction hr with
    | single hs => exact ⟨hs.2, h.center _ hs.1⟩
    | tail _ hs ih => exact ⟨hs.2, h.closed _ ih.1 ih.2 _ hs.1⟩

/-- Edge of the neighbour graph restricted to `pop`. -/
def Edge (ngbs : NgbList) (pop : List Nat) (a b : Nat) : Prop := a ∈ pop ∧ b ∈ pop ∧ Ngb ngbs a b

theorem segregateLoop_ok (ngbs : NgbList) :
    ∀ (fuel : Nat) (pop : List Nat) (clusters : List (List Nat)), pop.Nodup → pop.length < fuel →
      (∀ x ∈ pop, x < ngbs.length) →
      ∃ cs, segregateLoop ngbs fuel pop clusters = .ok (clusters ++ cs) ∧
        cs.flatten.Nodup ∧ (∀ x, x ∈ cs.flatten ↔ x ∈ pop) ∧
        (∀ C ∈ cs, C ≠ [] ∧ C.Pairwise (· < ·)) ∧
        ((∀ a b, a ∈ pop → b ∈ pop → Ngb ngbs a b → Ngb ngbs b a) →
          ∀ C ∈ cs, ∀ a ∈ C, ∀ b, b ∈ C ↔ b ∈ pop ∧ Relation.ReflTransGen (Edge ngbs pop) a b) := by
  intro fuel
  induction fuel with
  | zero => intro pop clusters _ h; omega
  | succ fuel ih =>
    intro pop clusters hnd hlen hlt
    cases pop with
    | nil => exact ⟨[], by simp [segregateLoop], by simp, by simp, by simp, by simp⟩
    | cons center rest =>
      obtain ⟨hcr, hrnd⟩ := List.nodup_cons.1 hnd
      obtain ⟨p1, c1, h1, hg⟩ := grow_ok ngbs (rest.length + 1) rest [center] center hrnd (by omega)
        (hlt center (by simp)) (fun x hx => hlt x (by simp [hx]))
      have hp1nd := hrnd.sublist hg.sub
      obtain ⟨cs, k1, k2, k3, k4, k5⟩ := ih p1 (clusters ++ [c1]) hp1nd
        (by have := hg.sub.length_le; simp at hlen; omega)
        (fun x hx => hlt x (by simp [hg.sub.subset hx]))
      have hc1mem : ∀ x, x ∈ c1 ↔ x = center ∨ (x ∈ rest ∧ x ∉ p1) := by
        intro x; rw [hg.mem]; simp
      have hc1s : c1.Pairwise (· < ·) := hg.sorted (by simp)
      have hcp1 : center ∉ p1 := fun h => hcr (hg.sub.subset h)
      refine ⟨c1 :: cs, ?_, ?_, ?_, ?_, ?_⟩
      · simp only [segregateLoop]
        rw [h1, ok_bind]
        simp only
        rw [k1]; simp
      · rw [List.flatten_cons, List.nodup_append]
        refine ⟨hc1s.imp (fun h => Nat.ne_of_lt h), k2, ?_⟩
        rintro a ha b hb rfl
        rw [k3] at hb
        rcases (hc1mem a).1 ha with rfl | ⟨-, h⟩
        · exact hcp1 hb
        · exact h hb
      · intro x
        rw [List.flatten_cons, List.mem_append, k3, hc1mem, List.mem_cons]
        constructor
        · rintro ((h | ⟨h, -⟩) | h)
          · exact .inl h
          · exact .inr h
          · exact .inr (hg.sub.subset h)
        · rintro (h | h)
          · exact .inl (.inl h)
          · by_cases hx : x ∈ p1
            · exact .inr hx
            · exact .inl (.inr ⟨h, hx⟩)
      · intro C hC
        rcases List.mem_cons.1 hC with rfl | hC
        · exact ⟨List.ne_nil_of_mem ((hc1mem center).2 (.inl rfl)), hc1s⟩
        · exact k4 C hC
      · intro hsym
        -- no neighbour relation from the cluster to what remains
        have hclosed : ∀ a b, a ∈ c1 → Ngb ngbs a b → b ∉ p1 := by
          intro a b ha hab
          rcases (hc1mem a).1 ha with rfl | ⟨h, h'⟩
          · exact hg.center b hab
          · exact hg.closed a h h' b hab
        have hfrom : ∀ x, x ∈ c1 ↔ x ∈ center :: rest ∧
            Relation.ReflTransGen (Edge ngbs (center :: rest)) center x := by
          intro x
          constructor
          · intro hx
            rcases (hc1mem x).1 hx with rfl | ⟨hx1, hx2⟩
            · exact ⟨by simp, .refl⟩
            · refine ⟨by simp [hx1], ?_⟩
              have := hg.reach x hx1 hx2
              have key : ∀ y, Relation.TransGen (Step ngbs rest) center y →
                  Relation.ReflTransGen (Edge ngbs (center :: rest)) center y ∧ y ∈ center :: rest := by
                intro y hy
                induction hy with
                | single hs => exact ⟨.single ⟨by simp, by simp [hs.2], hs.1⟩, by simp [hs.2]⟩
                | tail _ hs ih => exact ⟨ih.1.tail ⟨ih.2, by simp [hs.2], hs.1⟩, by simp [hs.2]⟩
              exact (key x this).1
          · rintro ⟨-, hx⟩
            induction hx with
            | refl => exact (hc1mem center).2 (.inl rfl)
            | tail _ hs ih =>
              rename_i b c _
              have := hclosed b c ih hs.2.2
              rcases List.mem_cons.1 hs.2.1 with rfl | hr
              · exact (hc1mem c).2 (.inl rfl)
              · exact (hc1mem c).2 (.inr ⟨hr, this⟩)
        have hsymE : ∀ a b, Relation.ReflTransGen (Edge ngbs (center :: rest)) a b →
            Relation.ReflTransGen (Edge ngbs (center :: rest)) b a := by
          intro a b hab
          induction hab with
          | refl => exact .refl
          | tail _ hs ih => exact .head ⟨hs.2.1, hs.1, hsym _ _ hs.1 hs.2.1 hs.2.2⟩ ih
        intro C hC a ha b
        rcases List.mem_cons.1 hC with rfl | hC
        · have ha' := (hfrom a).1 ha
          rw [hfrom]
          constructor
          · rintro ⟨hb1, hb2⟩; exact ⟨hb1, (hsymE _ _ ha'.2).trans hb2⟩
          · rintro ⟨hb1, hb2⟩; exact ⟨hb1, ha'.2.trans hb2⟩
        · have hap : a ∈ p1 := (k3 a).1 (List.mem_flatten.2 ⟨C, hC, ha⟩)
          rw [k5 (fun x y hx hy h => hsym x y (by simp [hg.sub.subset hx]) (by simp [hg.sub.subset hy]) h)
            C hC a ha b]
          constructor
          · rintro ⟨hb, hab⟩
            refine ⟨by simp [hg.sub.subset hb], ?_⟩
            exact reflTransGen_mono (fun x y h => ⟨by simp [hg.sub.subset h.1],
              by simp [hg.sub.subset h.2.1], h.2.2⟩) hab
          · rintro ⟨-, hab⟩
            induction hab with
            | refl => exact ⟨hap, .refl⟩
            | tail _ hs ih =>
              rename_i x y _
              obtain ⟨i1, i2⟩ := ih
              have hy : y ∈ p1 := by
                by_contra hy
                have hyc : y ∈ c1 := by
                  rcases List.mem_cons.1 hs.2.1 with rfl | hr
                  · exact (hc1mem y).2 (.inl rfl)
                  · exact (hc1mem y).2 (.inr ⟨hr, hy⟩)
                exact hclosed y x hyc (hsym x y hs.1 hs.2.1 hs.2.2) i1
              exact ⟨hy, i2.tail ⟨i1, hy, hs.2.2⟩⟩

end Clusters
end Colloids
