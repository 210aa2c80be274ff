import Verif.Recon.Lemmas
import Verif.DynField.Lemmas

/-! # Helper lemmas for the growth and the splitting of the clusters -/

namespace Colloids
namespace Recon
variable {G : Type} [Field G] [LinearOrder G]

/-- The loop updating the clusters, over pairs of a center and its trajectory. -/
def growPairs {X Y : Type} (f : X → Y) (old : Nat) (cls : List (List Y)) (l : List (X × Nat)) :
    R (List (List Y)) :=
  l.foldlM (fun cls ct => if ct.2 < old then modifyR cls ct.2 (· ++ [f ct.1])
    else pure (cls ++ [[f ct.1]])) cls

theorem modifyR_tab {α : Type} {n : Nat} {f : Nat → α} {i : Nat} (g : α → α) (h : i < n) :
    modifyR (tab n f) i g = .ok (tab n (fun j => if j = i then g (f j) else f j)) := by
  rw [modifyR_ok]
  refine ⟨by rw [tab_length]; exact h, ?_⟩
  apply List.ext_getElem?
  intro j
  rw [List.getElem?_modify]
  by_cases hj : j < n
  · by_cases hij : i = j
    · subst hij; simp [tab, hj]
    · simp [tab, hj, hij, Ne.symm hij]
  · simp [tab, hj]

theorem growPairs_ok {X Y : Type} (f : X → Y) (old : Nat) : ∀ (l : List (X × Nat)) (m : Nat)
    (base : Nat → List Y), old ≤ m → (∀ j, m ≤ j → base j = []) →
    (∀ l1 c tr l2, l = l1 ++ (c, tr) :: l2 → old ≤ tr →
      tr = m + (l1.filter (fun x => decide (old ≤ x.2))).length) →
    growPairs f old (tab m base) l =
      .ok (tab (m + (l.filter (fun x => decide (old ≤ x.2))).length)
        (fun tr => base tr ++ (l.filter (fun x => decide (x.2 = tr))).map (fun x => f x.1))) := by
  intro l
  induction l with
  | nil => intro m base _ _ _; simp [growPairs]
  | cons x l ih =>
    obtain ⟨c, tr⟩ := x
    intro m base hm hb hnew
    unfold growPairs
    rw [List.foldlM_cons]
    dsimp only
    by_cases htr : tr < old
    · rw [if_pos htr, modifyR_tab _ (by omega), ok_bind]
      have := ih m (fun j => if j = tr then base j ++ [f c] else base j) hm (by
        intro j hj; rw [if_neg (by omega)]; exact hb j hj) (by
        intro l1 c' tr' l2 hl ho
        have := hnew ((c, tr) :: l1) c' tr' l2 (by rw [hl]; rfl) ho
        rw [List.filter_cons_of_neg (by simpa using htr)] at this
        exact this)
      unfold growPairs at this
      rw [this]
      congr 1
      rw [List.filter_cons_of_neg (by simpa using htr)]
      apply tab_congr
      intro j _
      by_cases hj : j = tr
      · subst hj; simp
      · rw [if_neg hj, List.filter_cons_of_neg (by simpa using Ne.symm hj)]
    · rw [if_neg htr, pure_eq_ok, ok_bind]
      have hm' : tr = m := by simpa using hnew [] c tr l rfl (by omega)
      subst hm'
      have e : tab tr base ++ [[f c]] =
          tab (tr + 1) (fun j => if j = tr then base j ++ [f c] else base j) := by
        unfold tab
        rw [List.range_succ, List.map_append]
        congr 1
        · apply List.map_congr_left
          intro j hj
          rw [List.mem_range] at hj
          rw [if_neg (by omega)]
        · simp [hb tr (le_refl _)]
      rw [e]
      have := ih (tr + 1) (fun j => if j = tr then base j ++ [f c] else base j) (by omega) (by
        intro j hj; rw [if_neg (by omega)]; exact hb j (by omega)) (by
        intro l1 c' tr' l2 hl ho
        have := hnew ((c, tr) :: l1) c' tr' l2 (by rw [hl]; rfl) ho
        rw [List.filter_cons_of_pos (by simpa using hm)] at this
        rw [this, List.length_cons]
        omega)
      unfold growPairs at this
      rw [this]
      congr 1
      rw [List.filter_cons_of_pos (by simpa using hm), List.length_cons,
        show tr + 1 + (l.filter (fun x => decide (old ≤ x.2))).length =
          tr + ((l.filter (fun x => decide (old ≤ x.2))).length + 1) by omega]
      apply tab_congr
      intro j _
      by_cases hj : j = tr
      · subst hj; simp
      · rw [if_neg hj, List.filter_cons_of_neg (by simpa using Ne.symm hj)]

theorem flatten_modify_perm {Y : Type} (y : Y) : ∀ (cls : List (List Y)) (i : Nat), i < cls.length →
    (cls.modify i (· ++ [y])).flatten.Perm (cls.flatten ++ [y]) := by
  intro cls
  induction cls with
  | nil => intro i h; simp at h
  | cons c cls ih =>
    intro i h
    cases i with
    | zero =>
      simp only [List.modify_zero_cons, List.flatten_cons, List.append_assoc]
      exact List.Perm.append_left _ (List.perm_append_comm)
    | succ i =>
      simp only [List.modify_succ_cons, List.flatten_cons, List.append_assoc]
      exact List.Perm.append_left _ (ih i (by simpa using h))

theorem growPairs_perm {X Y : Type} (f : X → Y) (old : Nat) : ∀ (l : List (X × Nat))
    (cls out : List (List Y)), growPairs f old cls l = .ok out →
    out.flatten.Perm (cls.flatten ++ l.map (fun x => f x.1)) := by
  intro l
  induction l with
  | nil => intro cls out h; unfold growPairs at h; simp at h; subst h; simp
  | cons x l ih =>
    intro cls out h
    unfold growPairs at h
    rw [List.foldlM_cons, bind_ok] at h
    obtain ⟨cls1, h1, h2⟩ := h
    have hp := ih cls1 out h2
    refine hp.trans ?_
    rw [List.map_cons, List.append_cons]
    split at h1
    · obtain ⟨a, b⟩ := modifyR_ok.1 h1
      rw [b]
      exact List.Perm.append_right _ (flatten_modify_perm _ _ _ a)
    · rw [pure_eq_ok] at h1
      injection h1 with h1
      rw [← h1]
      simp

theorem grow_eq {ti : MIndex} {t : Nat} {row : List Nat} (ht : ti.pos2tr[t]? = some row)
    {fr : List (Center 2 G)} (hl : row.length = fr.length) (old : Nat)
    (cls : List (List (Center 3 G))) :
    (List.range fr.length).foldlM (growStep ti t old fr) cls =
      growPairs (fun c : Center 2 G => c.raise (t : G)) old cls (fr.zip row) := by
  have key : ∀ n, n ≤ fr.length → (List.range n).foldlM (growStep ti t old fr) cls =
      growPairs (fun c : Center 2 G => c.raise (t : G)) old cls ((fr.zip row).take n) := by
    intro n
    induction n with
    | zero => intro _; rfl
    | succ n ih =>
      intro hn
      have h1 : n < fr.length := by omega
      have h2 : n < row.length := by omega
      have h3 : n < (fr.zip row).length := by simp; omega
      rw [List.range_succ, List.foldlM_append, ih (by omega), List.take_succ_eq_append_getElem h3]
      unfold growPairs
      rw [List.foldlM_append]
      congr 1
      funext cls'
      rw [List.foldlM_cons, List.foldlM_cons]
      have : growStep ti t old fr cls' n = (if row[n] < old then
          modifyR cls' row[n] (· ++ [fr[n].raise (t : G)])
          else pure (cls' ++ [[fr[n].raise (t : G)]])) := by
        unfold growStep
        rw [MIndex.getTraj_ok.2 ⟨row, ht, List.getElem?_eq_getElem h2⟩, ok_bind, getR_of_lt h1, ok_bind]
      rw [this]
      simp only [List.getElem_zip, List.foldlM_nil]
  have := key fr.length (le_refl _)
  rwa [List.take_of_length_le (by simp)] at this

/-- The centers of trajectory `tr` in frame `fr` at time `t`. -/
def entry (fr : List (Center 2 G)) (row : List Nat) (tr t : Nat) : List (Center 3 G) :=
  ((fr.zip row).filter (fun x => decide (x.2 = tr))).map (fun x => x.1.raise (t : G))

/-- The centers of trajectory `tr`. -/
def clusterOf (acc : List (List (Center 2 G))) (rows : List (List Nat)) (tr : Nat) :
    List (Center 3 G) :=
  ((acc.zip rows).zipIdx).flatMap (fun x => entry x.1.1 x.1.2 tr x.2)

omit [LinearOrder G] in
theorem clusterOf_concat {acc : List (List (Center 2 G))} {rows : List (List Nat)}
    (h : acc.length = rows.length) (fr : List (Center 2 G)) (row : List Nat) (tr : Nat) :
    clusterOf (acc ++ [fr]) (rows ++ [row]) tr = clusterOf acc rows tr ++ entry fr row tr rows.length := by
  unfold clusterOf
  rw [List.zip_append h, List.zipIdx_append, List.flatMap_append]
  congr 1
  simp [h]

omit [LinearOrder G] in
theorem clusterOf_eq_nil {acc : List (List (Center 2 G))} {rows : List (List Nat)} {tr : Nat}
    (h : ∀ row ∈ rows, tr ∉ row) : clusterOf acc rows tr = [] := by
  unfold clusterOf
  rw [List.flatMap_eq_nil_iff]
  rintro ⟨⟨fr, row⟩, t⟩ hx
  unfold entry
  rw [List.map_eq_nil_iff, List.filter_eq_nil_iff]
  rintro ⟨c, j⟩ hc
  have h1 := List.mem_zipIdx' hx
  have h2 : (fr, row) ∈ acc.zip rows := by
    have := List.fst_mem_of_mem_zipIdx hx; exact this
  have h3 : row ∈ rows := (List.of_mem_zip h2).2
  have h4 : j ∈ row := (List.of_mem_zip hc).2
  simp only [decide_eq_true_eq]
  rintro rfl
  exact h row h3 h4


theorem countNew {row : List Nat} {U : Nat → Bool} {old : Nat}
    (h : ∀ (q : Nat) (hq : q < row.length), U q = decide (old ≤ row[q])) (p : Nat)
    (hp : p ≤ row.length) :
    ((row.take p).filter (fun x => decide (old ≤ x))).length = ((List.range p).filter U).length := by
  induction p with
  | zero => simp
  | succ p ih =>
    have hl : p < row.length := by omega
    rw [List.take_succ_eq_append_getElem hl, List.range_succ, List.filter_append, List.filter_append,
      List.length_append, List.length_append, ih (by omega)]
    congr 1
    have := h p hl
    by_cases ho : old ≤ row[p]
    · simp [ho, this]
    · simp [ho, this]

theorem filter_range_getElem {U : Nat → Bool} {n p : Nat} (hp : p < n) (hU : U p = true) :
    ((List.range n).filter U)[((List.range p).filter U).length]? = some p := by
  have e : List.range n = List.range p ++ (p :: List.range' (p + 1) (n - p - 1)) := by
    rw [← List.range'_succ, List.range_eq_range', List.range_eq_range']
    have := (List.range'_append_1 (s := 0) (m := p) (n := n - p - 1 + 1))
    rw [Nat.zero_add] at this
    rw [this]
    congr 1; omega
  rw [e, List.filter_append, List.getElem?_append_right (le_refl _), Nat.sub_self,
    List.filter_cons_of_pos hU]
  rfl

/-- The lists of accepted frames, the trajectories and the clusters say the same thing. -/
structure Lock (acc : List (List (Center 2 G))) (s : Recon G) (ti : MIndex) : Prop where
  some : s.trajectories = some ti
  good : ti.Good
  sizes : ti.pos2tr.map List.length = acc.map List.length
  cls : s.clusters = tab ti.tr2pos.length (clusterOf acc ti.pos2tr)
  last : acc.getLast? = Option.some s.lastFrame
  perm : s.clusters.flatten.Perm
    (acc.zipIdx.flatMap (fun ft => ft.1.map (fun c => c.raise (ft.2 : G))))

omit [LinearOrder G] in
theorem lock_first (fr : List (Center 2 G)) :
    Lock [fr] ⟨Option.some (MIndex.init fr.length), ([] : List (List (Center 3 G))) ++
      fr.map (fun c => [c.raise 0]), fr⟩ (MIndex.init fr.length) := by
  refine ⟨rfl, MIndex.init_good _, by simp [MIndex.init], ?_, rfl, ?_⟩
  · dsimp only
    rw [List.nil_append]
    apply List.ext_getElem?
    intro i
    unfold tab
    simp only [MIndex.init, List.length_map, List.length_range, List.getElem?_map]
    by_cases hi : i < fr.length
    · simp only [List.getElem?_eq_getElem hi, List.getElem?_range hi, Option.map_some]
      congr 1
      unfold clusterOf entry
      simp only [List.zip_cons_cons, List.zip_nil_left, List.zipIdx_cons, List.zipIdx_nil,
        List.flatMap_cons, List.flatMap_nil, List.append_nil]
      have e : fr.zip (List.range fr.length) = fr.zipIdx := by
        rw [List.zipIdx_eq_zip_range', List.range_eq_range']
      rw [e]
      have e2 : fr.zipIdx.filter (fun x => decide (x.2 = i)) = [(fr[i], i)] := by
        have hsplit : fr = fr.take i ++ fr[i] :: fr.drop (i + 1) := by
          rw [List.cons_getElem_drop_succ, List.take_append_drop]
        have hlen : (fr.take i).length = i := by simp; omega
        conv_lhs => rw [hsplit]
        rw [List.zipIdx_append, List.zipIdx_cons, List.filter_append, hlen]
        have h1 : ((fr.take i).zipIdx 0).filter (fun x => decide (x.2 = i)) = [] := by
          rw [List.filter_eq_nil_iff]
          rintro ⟨c, j⟩ hx
          have := List.mem_zipIdx hx
          simp at this ⊢
          omega
        have h2 : ((fr.drop (i + 1)).zipIdx (0 + i + 1)).filter (fun x => decide (x.2 = i)) = [] := by
          rw [List.filter_eq_nil_iff]
          rintro ⟨c, j⟩ hx
          have := List.mem_zipIdx hx
          simp at this ⊢
          omega
        rw [h1, List.filter_cons_of_pos (by simp), h2]
        simp
      rw [e2]
      simp
    · simp [hi]
  · dsimp only
    rw [List.nil_append]
    simp only [List.zipIdx_cons, List.zipIdx_nil, List.flatMap_cons, List.flatMap_nil,
      List.append_nil, Nat.cast_zero]
    have : (fr.map (fun c => [c.raise (0 : G)])).flatten = fr.map (fun c => c.raise 0) := by
      induction fr with
      | nil => rfl
      | cons c fr ih => simp [ih]
    rw [this]

omit G in
/-- Which positions of the last two frames are in the same trajectory. -/
theorem joined_iff {ti : MIndex} (hg : ti.Good) {prev : List Nat}
    (hlast : ti.pos2tr.getLast? = some prev) {row : List Nat} {trs : List MTraj} {n : Nat}
    {bonds : Frame} (h2 : row.length = n) (hlt : ∀ x ∈ bonds, x.1 < prev.length)
    (h4 : ∀ a b, (a, b) ∈ bonds → row[b]? = prev[a]?)
    (h5 : ∀ i p : Nat, ((List.range n).filter (fun b => b ∉ bonds.map Prod.snd))[i]? = some p →
        row[p]? = some (ti.tr2pos.length + i)) (a b : Nat) :
    MIndex.Joined ⟨trs, ti.pos2tr ++ [row]⟩ a b ↔ (a, b) ∈ bonds := by
  have hfr := hg.frames
  have hgetp : (ti.pos2tr ++ [row])[(ti.pos2tr ++ [row]).length - 2]? = some prev := by
    rw [List.length_append, List.length_singleton, List.getElem?_append_left (by omega),
      show ti.pos2tr.length + 1 - 2 = ti.pos2tr.length - 1 by omega, ← List.getLast?_eq_getElem?]
    exact hlast
  have hgetr : (ti.pos2tr ++ [row])[(ti.pos2tr ++ [row]).length - 1]? = some row := by simp
  have hprevlt : ∀ a tr : Nat, prev[a]? = some tr → tr < ti.tr2pos.length := by
    intro a tr hp
    obtain ⟨T, hT, -⟩ := hg.valid.traj (ti.pos2tr.length - 1) a tr (MIndex.getTraj_ok.2
      ⟨prev, by rw [← List.getLast?_eq_getElem?]; exact hlast, hp⟩)
    exact (List.getElem?_eq_some_iff.1 hT).1
  have hprevnd : prev.Nodup := hg.nodup _ (List.mem_of_getLast? hlast)
  unfold MIndex.Joined
  constructor
  · rintro ⟨tr, k1, k2⟩
    obtain ⟨r1, e1, e2⟩ := MIndex.getTraj_ok.1 k1
    obtain ⟨r2, e3, e4⟩ := MIndex.getTraj_ok.1 k2
    simp only [hgetp, Option.some.injEq] at e1
    simp only [hgetr, Option.some.injEq] at e3
    subst e1 e3
    have hbs : b < n := by rw [← h2]; exact (List.getElem?_eq_some_iff.1 e4).1
    by_cases hb : b ∈ bonds.map Prod.snd
    · obtain ⟨⟨a0, b0⟩, hm, rfl⟩ := List.mem_map.1 hb
      have := h4 a0 b0 hm
      simp only at e4
      rw [e4] at this
      obtain ⟨g1, g2⟩ := List.getElem?_eq_some_iff.1 e2
      obtain ⟨g3, g4⟩ := List.getElem?_eq_some_iff.1 this.symm
      have : a = a0 := (List.Nodup.getElem_inj_iff hprevnd).1 (g2.trans g4.symm)
      subst this
      exact hm
    · have hbu : b ∈ (List.range n).filter (fun b => b ∉ bonds.map Prod.snd) := by
        rw [List.mem_filter]; simp [hbs]; simpa using hb
      obtain ⟨i, hi⟩ := List.mem_iff_getElem?.1 hbu
      have := h5 i b hi
      rw [e4] at this
      have h7 := Option.some.inj this
      have := hprevlt a tr e2
      omega
  · intro hm
    have hlt' := hlt _ hm
    have e2 : prev[a]? = some (prev[a]'hlt') := List.getElem?_eq_getElem hlt'
    refine ⟨prev[a]'hlt', MIndex.getTraj_ok.2 ⟨prev, hgetp, e2⟩, MIndex.getTraj_ok.2 ⟨row, hgetr, ?_⟩⟩
    rw [h4 a b hm]; exact e2

variable [IsStrictOrderedRing G]

theorem lock_push {P : RParams G} {H : Heur 2 G} (hP : P.Valid) (hH : H.Valid P)
    {sort : List (Center 2 G) → List (Center 2 G)} (hs : Center.SortsByIntensity sort)
    {acc : List (List (Center 2 G))} {s : Recon G} {ti : MIndex} (h : Lock acc s ti)
    (frame : List (Center 2 G)) (maxDist : G) :
    ∃ fr tree s' ti', Center.removeOverlapping P H sort frame (1 / 2) = .ok (fr, tree) ∧
      pushBack P H sort s frame maxDist = .ok s' ∧ Lock (acc ++ [fr]) s' ti' ∧
      (∃ row, ti'.pos2tr = ti.pos2tr ++ [row]) ∧
      RTree.Reachable P H false tree ∧ tree.content.Perm (Center.leavesOf (1 / 2) fr) ∧
      Center.KeepsBest (Center.TolConflict (1 / 2)) frame fr ∧
      ∀ a b, ti'.Joined a b ↔ (a, b) ∈ TrajMap.greedy (MIndex.sortedBonds
        ((treeLinks s.lastFrame fr tree maxDist s.lastFrame.length).map (·.1))
        ((treeLinks s.lastFrame fr tree maxDist s.lastFrame.length).map (·.2.1))
        ((treeLinks s.lastFrame fr tree maxDist s.lastFrame.length).map (·.2.2))) := by
  obtain ⟨fr, tree, r1, r2, r3, r4⟩ := Center.C31_tree hP hH hs frame (1 / 2)
  have hlen : acc.length = ti.pos2tr.length := by
    have := congrArg List.length h.sizes; simpa using this.symm
  -- links
  have hlk := links_ok hP hH (last := s.lastFrame) r3 r4 maxDist
  have hne : ti.pos2tr ≠ [] := List.length_pos_iff.1 h.good.frames
  obtain ⟨prev, hprev⟩ : ∃ prev, ti.pos2tr.getLast? = Option.some prev :=
    ⟨_, List.getLast?_eq_some_getLast hne⟩
  have hpl : prev.length = s.lastFrame.length := by
    have h1 : (ti.pos2tr.map List.length).getLast? = Option.some prev.length := by
      rw [List.getLast?_map, hprev]; rfl
    rw [h.sizes, List.getLast?_map, h.last] at h1
    simpa using h1.symm
  have hargs : MIndex.LinkArgs prev.length fr.length
      ((treeLinks s.lastFrame fr tree maxDist s.lastFrame.length).map (·.1))
      ((treeLinks s.lastFrame fr tree maxDist s.lastFrame.length).map (·.2.1))
      ((treeLinks s.lastFrame fr tree maxDist s.lastFrame.length).map (·.2.2)) := by
    refine ⟨by simp, by simp, ?_, ?_⟩
    · intro p hp
      obtain ⟨e, he, rfl⟩ := List.mem_map.1 hp
      obtain ⟨x, y, -, hy, -⟩ := mem_treeLinks.1 he
      exact (List.getElem?_eq_some_iff.1 hy).1
    · intro p hp
      obtain ⟨e, he, rfl⟩ := List.mem_map.1 hp
      obtain ⟨x, y, hx, -⟩ := mem_treeLinks.1 he
      rw [hpl]
      exact (List.getElem?_eq_some_iff.1 hx).1
  obtain ⟨row, trs, a1, a2, a3, a4, a5, a6⟩ := MIndex.addFrameLinks_ok h.good hprev hargs
  generalize hbonds : TrajMap.greedy (MIndex.sortedBonds
      ((treeLinks s.lastFrame fr tree maxDist s.lastFrame.length).map (·.1))
      ((treeLinks s.lastFrame fr tree maxDist s.lastFrame.length).map (·.2.1))
      ((treeLinks s.lastFrame fr tree maxDist s.lastFrame.length).map (·.2.2))) = bonds at a4 a5 a6
  have hold : ∀ row' ∈ ti.pos2tr, ∀ tr ∈ row', tr < ti.tr2pos.length := by
    intro row' hr tr htr
    obtain ⟨t, ht⟩ := List.mem_iff_getElem?.1 hr
    obtain ⟨p, hp⟩ := List.mem_iff_getElem?.1 htr
    have := h.good.pos_iff.2 ⟨row', ht, hp⟩
    unfold posAt at this
    by_contra hc
    rw [List.getElem?_eq_none (by simpa using hc)] at this
    cases this
  have hrow : ∀ (b : Nat) (hb : b < row.length),
      (fun b => decide (b ∉ bonds.map Prod.snd)) b = decide (ti.tr2pos.length ≤ row[b]) := by
    intro b hb
    dsimp only
    by_cases hm : b ∈ bonds.map Prod.snd
    · obtain ⟨⟨a, b'⟩, hab, rfl⟩ := List.mem_map.1 hm
      have h1 := a4 a b' hab
      rw [List.getElem?_eq_getElem hb] at h1
      have h2 : row[b'] ∈ prev := List.mem_of_getElem? h1.symm
      have h3 := hold prev (List.mem_of_getLast? hprev) _ h2
      simp only [hm, not_true_eq_false, decide_false]
      symm
      simpa using h3
    · have h1 := a5 _ b (filter_range_getElem (U := fun b => decide (b ∉ bonds.map Prod.snd))
        (show b < fr.length by omega) (by simpa using hm))
      rw [List.getElem?_eq_getElem hb] at h1
      injection h1 with h1
      rw [h1]
      simp [hm]
  -- clusters
  have hzip : (fr.zip row).map Prod.snd = row := List.map_snd_zip (by omega)
  have hfl : ∀ l : List (Center 2 G × Nat), (l.filter (fun x => decide (ti.tr2pos.length ≤ x.2))).length =
      ((l.map Prod.snd).filter (fun x => decide (ti.tr2pos.length ≤ x))).length := by
    intro l; rw [List.filter_map, List.length_map]; rfl
  have hgrow := growPairs_ok (fun c : Center 2 G => c.raise (ti.pos2tr.length : G)) ti.tr2pos.length
    (fr.zip row) ti.tr2pos.length (clusterOf acc ti.pos2tr) (le_refl _)
    (fun j hj => clusterOf_eq_nil (fun row' hr hm => by have := hold row' hr j hm; omega))
    (by
      intro l1 c tr l2 hl ho
      have hm : row = (l1.map Prod.snd) ++ tr :: l2.map Prod.snd := by
        rw [← hzip, hl]; simp
      have htk : l1.map Prod.snd = row.take l1.length := by
        rw [hm, List.take_append_of_le_length (by simp), List.take_of_length_le (by simp)]
      have hp : l1.length < row.length := by rw [hm]; simp
      have hrp : row[l1.length]? = Option.some tr := by
        rw [hm, List.getElem?_append_right (by simp)]; simp
      rw [hfl, htk, countNew hrow _ (by omega)]
      have hU := hrow l1.length hp
      have hrp' : row[l1.length] = tr := by
        rw [List.getElem?_eq_getElem hp] at hrp; injection hrp
      rw [hrp'] at hU
      have h1 := a5 _ _ (filter_range_getElem (U := fun b => decide (b ∉ bonds.map Prod.snd))
        (show l1.length < fr.length by omega) (hU.trans (decide_eq_true ho)))
      rw [hrp] at h1
      injection h1)
  have hcount : ((fr.zip row).filter (fun x => decide (ti.tr2pos.length ≤ x.2))).length =
      ((List.range fr.length).filter (fun b => decide (b ∉ bonds.map Prod.snd))).length := by
    rw [hfl, hzip]
    have := countNew hrow row.length (le_refl _)
    rw [List.take_length, a2] at this
    exact this
  rw [hcount, ← a6] at hgrow
  have hg2 := grow_eq (G := G) (ti := ⟨trs, ti.pos2tr ++ [row]⟩) (t := ti.pos2tr.length) (row := row)
    (by simp) (fr := fr) a2 ti.tr2pos.length s.clusters
  rw [h.cls, hgrow] at hg2
  refine ⟨fr, tree, ⟨Option.some ⟨trs, ti.pos2tr ++ [row]⟩, tab trs.length (fun tr => clusterOf acc ti.pos2tr tr ++
      ((fr.zip row).filter (fun x => decide (x.2 = tr))).map (fun x => x.1.raise (ti.pos2tr.length : G))), fr⟩,
    ⟨trs, ti.pos2tr ++ [row]⟩, r1, ?_, ?_, ⟨row, rfl⟩, r3, r4, r2, ?_⟩
  · unfold pushBack
    rw [r1, ok_bind, h.some]
    dsimp only
    rw [hlk, ok_bind, a1]
    unfold afterIndex
    dsimp only
    rw [ok_bind, h.cls, hg2, ok_bind]
    rfl
  · refine ⟨rfl, a3, ?_, ?_, ?_, ?_⟩
    · simp only [List.map_append, List.map_cons, List.map_nil, h.sizes, a2]
    · dsimp only
      apply tab_congr
      intro tr _
      rw [clusterOf_concat hlen]
      rfl
    · simp
    · dsimp only
      have hpm := growPairs_perm _ _ _ _ _ hgrow
      rw [← h.cls] at hpm
      refine hpm.trans ?_
      rw [List.zipIdx_append, List.flatMap_append]
      refine List.Perm.append h.perm ?_
      simp only [List.zipIdx_cons, List.zipIdx_nil, List.flatMap_cons, List.flatMap_nil,
        List.append_nil, Nat.zero_add]
      rw [hlen]
      have : (fr.zip row).map (fun x => x.1.raise (ti.pos2tr.length : G)) =
          ((fr.zip row).map Prod.fst).map (fun c => c.raise (ti.pos2tr.length : G)) := by
        rw [List.map_map]; rfl
      rw [this, List.map_fst_zip (by omega)]
  · rw [hbonds]
    refine joined_iff h.good hprev a2 ?_ a4 a5
    intro x hx
    rw [← hbonds] at hx
    obtain ⟨d, hd⟩ := TrajMap.greedy_sub _ hx
    obtain ⟨i, k1, k2, k3⟩ := MIndex.mem_sortedBonds.1 hd
    exact hargs.from_lt _ (List.mem_of_getElem? k2)

end Recon
end Colloids
