import Verif.Recon.HistLemmas

/-! # Properties of the reconstruction: C32, C33, C34, C53, C54

`TolConflict`, `KeepsBest` are in `Centers/Props.lean`; `MIndex.Valid`, `MIndex.Joined` in
`MTraj/Props.lean`. -/

namespace Colloids
namespace Recon
variable {G : Type} [Field G] [LinearOrder G] [IsStrictOrderedRing G]

/-! ## C32 -/

/-- **C32**. Whatever the frames and the maximum distances, pushing them never faults. The accepted
centers of a frame are what the removal of the overlaps keeps. Then there are as many frames as calls,
as many clusters as trajectories, the index of the trajectories is valid and has one position per
accepted center, cluster `tr` lists the centers of trajectory `tr` in order, each at the
depth of its frame, and the clusters hold each accepted center exactly once. -/
theorem C32_clusters {P : RParams G} {H : Heur 2 G} (hP : P.Valid) (hH : H.Valid P)
    {sort : List (Center 2 G) → List (Center 2 G)} (hs : Center.SortsByIntensity sort)
    (calls : List (List (Center 2 G) × G)) (hne : calls ≠ []) :
    ∃ (acc : List (List (Center 2 G))) (s : Recon G) (ti : MIndex),
      calls.foldlM (fun s c => pushBack P H sort s c.1 c.2) new = .ok s ∧
      s.trajectories = some ti ∧ ti.Valid ∧
      acc.length = calls.length ∧ s.size = calls.length ∧
      (∀ (t : Nat) (call : List (Center 2 G) × G) (fr : List (Center 2 G)), calls[t]? = some call →
        acc[t]? = some fr → Center.KeepsBest (Center.TolConflict (1 / 2)) call.1 fr) ∧
      (∀ (t p : Nat), (∃ fr c, acc[t]? = some fr ∧ fr[p]? = some c) ↔ ∃ tr, ti.getTraj t p = .ok tr) ∧
      s.clusters.length = ti.tr2pos.length ∧
      (∀ (tr : Nat) (cl : List (Center 3 G)) (T : MTraj), s.clusters[tr]? = some cl →
        ti.tr2pos[tr]? = some T → cl.length = T.steps.length ∧
        ∀ (k : Nat) (x : Center 3 G), cl[k]? = some x → ∃ (t p : Nat) (fr : List (Center 2 G)) (c : Center 2 G),
          (t : Int) = T.start + k ∧ T.at_ t = .ok p ∧ acc[t]? = some fr ∧ fr[p]? = some c ∧
          x = c.raise (t : G)) ∧
      s.clusters.flatten.Perm (acc.zipIdx.flatMap (fun ft => ft.1.map (fun c => c.raise (ft.2 : G)))) := by
  obtain ⟨acc, s, ti, h1, h2, h3, h4⟩ := run_lock hP hH hs calls hne
  have hlen : acc.length = ti.pos2tr.length := by
    have := congrArg List.length h2.sizes; simpa using this.symm
  refine ⟨acc, s, ti, h1, h2.some, h2.good.valid, h3, ?_, ?_, ?_, ?_, ?_, h2.perm⟩
  · unfold size
    rw [h2.some]
    dsimp only
    omega
  · intro t call fr hc hfr
    obtain ⟨fr', tree, a, b⟩ := h4 t call hc
    rw [hfr] at a
    injection a with a
    subst a
    obtain ⟨kept, tree', r1, r2, -⟩ := Center.C31_tree hP hH hs call.1 (1 / 2)
    rw [r1] at b
    injection b with b
    injection b with b1 b2
    rw [← b1]
    exact r2
  · intro t p
    have hrow : ∀ fr row, acc[t]? = some fr → ti.pos2tr[t]? = some row → fr.length = row.length := by
      intro fr row e1 e2
      have : (ti.pos2tr.map List.length)[t]? = (acc.map List.length)[t]? := by rw [h2.sizes]
      rw [List.getElem?_map, List.getElem?_map, e1, e2] at this
      injection this with this
      exact this.symm
    constructor
    · rintro ⟨fr, c, e1, e2⟩
      have ht := (List.getElem?_eq_some_iff.1 e1).1
      have hp := (List.getElem?_eq_some_iff.1 e2).1
      have e3 : ti.pos2tr[t]? = some (ti.pos2tr[t]'(by omega)) := List.getElem?_eq_getElem _
      have := hrow _ _ e1 e3
      exact ⟨(ti.pos2tr[t]'(by omega))[p]'(by omega), MIndex.getTraj_ok.2
        ⟨_, e3, List.getElem?_eq_getElem _⟩⟩
    · rintro ⟨tr, e⟩
      obtain ⟨row, e1, e2⟩ := MIndex.getTraj_ok.1 e
      have ht := (List.getElem?_eq_some_iff.1 e1).1
      have hp := (List.getElem?_eq_some_iff.1 e2).1
      have e3 : acc[t]? = some (acc[t]'(by omega)) := List.getElem?_eq_getElem _
      have := hrow _ _ e3 e1
      exact ⟨_, (acc[t]'(by omega))[p]'(by omega), e3, List.getElem?_eq_getElem _⟩
  · rw [h2.cls, tab_length]
  · intro tr cl T hcl hT
    have htr := (List.getElem?_eq_some_iff.1 hT).1
    have e : cl = clusterOf acc ti.pos2tr tr := by
      rw [h2.cls] at hcl
      have := (getR_ok.1 (getR_tab (f := clusterOf acc ti.pos2tr) htr))
      rw [this] at hcl
      injection hcl with hcl
      exact hcl.symm
    obtain ⟨c1, c2⟩ := cluster_lists h2.good h2.sizes hT
    rw [e]
    refine ⟨c1, ?_⟩
    intro k x hx
    have hk := (List.getElem?_eq_some_iff.1 hx).1
    rw [c1] at hk
    obtain ⟨fr, c, d1, d2, d3⟩ := c2 k T.steps[k] (List.getElem?_eq_getElem hk)
    have h0 := h2.good.start T (List.mem_of_getElem? hT)
    refine ⟨T.start.toNat + k, T.steps[k], fr, c, by omega, ?_, d1, d2, ?_⟩
    · rw [MIndex.at_ok]
      refine ⟨by omega, ?_⟩
      rw [show (((T.start.toNat + k : Nat) : Int) - T.start).toNat = k by omega]
      exact List.getElem?_eq_getElem hk
    · rw [hx] at d3
      injection d3

/-- **C32**, which centers are linked. After any history, one more frame: two centers of the last two
frames are in the same trajectory only if they are closer than the maximum distance; and any two
that are closer than it are in the same trajectory, or one of them is in the same trajectory as a
center at least as close. -/
theorem C32_links {P : RParams G} {H : Heur 2 G} (hP : P.Valid) (hH : H.Valid P)
    {sort : List (Center 2 G) → List (Center 2 G)} (hs : Center.SortsByIntensity sort)
    (calls : List (List (Center 2 G) × G)) (hne : calls ≠ []) (frame : List (Center 2 G)) (maxDist : G)
    {s : Recon G} (h : calls.foldlM (fun s c => pushBack P H sort s c.1 c.2) new = .ok s) :
    ∃ s' ti', pushBack P H sort s frame maxDist = .ok s' ∧ s'.trajectories = some ti' ∧
      (∀ a b, ti'.Joined a b → ∃ x y, s.lastFrame[a]? = some x ∧ s'.lastFrame[b]? = some y ∧
        sqDist2 (d := 0) x y < maxDist * maxDist) ∧
      (0 ≤ maxDist → (∀ c ∈ frame, 0 ≤ c.r) → ∀ (a b : Nat) (x y : Center 2 G),
        s.lastFrame[a]? = some x → s'.lastFrame[b]? = some y → sqDist2 (d := 0) x y < maxDist * maxDist →
        ∃ (a' b' : Nat) (x' y' : Center 2 G), ti'.Joined a' b' ∧ s.lastFrame[a']? = some x' ∧
          s'.lastFrame[b']? = some y' ∧ sqDist2 (d := 0) x' y' ≤ sqDist2 (d := 0) x y ∧
          (a' = a ∨ b' = b)) := by
  obtain ⟨acc, s0, ti, h1, h2, -⟩ := run_lock hP hH hs calls hne
  unfold run at h1
  rw [h] at h1
  injection h1 with h1
  subst h1
  obtain ⟨fr, tree, s', ti', r1, r2, r3, -, r5, r6, r7, r8⟩ := lock_push hP hH hs h2 frame maxDist
  have hlast : s'.lastFrame = fr := by
    have := r3.last
    rw [List.getLast?_concat] at this
    injection this with this
    exact this.symm
  have hsb : ∀ (d : G) (a b : Nat), (d, (a, b)) ∈ MIndex.sortedBonds
        ((treeLinks s.lastFrame fr tree maxDist s.lastFrame.length).map (·.1))
        ((treeLinks s.lastFrame fr tree maxDist s.lastFrame.length).map (·.2.1))
        ((treeLinks s.lastFrame fr tree maxDist s.lastFrame.length).map (·.2.2)) ↔
        (d, a, b) ∈ treeLinks s.lastFrame fr tree maxDist s.lastFrame.length := by
    intro d a b
    rw [MIndex.mem_sortedBonds, List.mem_iff_getElem?]
    simp only [List.getElem?_map, Option.map_eq_some_iff]
    constructor
    · rintro ⟨i, ⟨e, e1, rfl⟩, ⟨e', e2, rfl⟩, ⟨e'', e3, rfl⟩⟩
      rw [e1] at e2 e3
      injection e2 with e2
      injection e3 with e3
      subst e2 e3
      exact ⟨i, e1⟩
    · rintro ⟨i, e⟩
      exact ⟨i, ⟨_, e, rfl⟩, ⟨_, e, rfl⟩, ⟨_, e, rfl⟩⟩
  refine ⟨s', ti', r2, r3.some, ?_, ?_⟩
  · intro a b hab
    obtain ⟨d, hd⟩ := TrajMap.greedy_sub _ ((r8 a b).1 hab)
    rw [hsb] at hd
    obtain ⟨x, y, g1, g2, g3, g4, -⟩ := mem_treeLinks.1 hd
    exact ⟨x, y, g1, by rw [hlast]; exact g2, g4⟩
  · intro hm hr a b x y hx hy hxy
    rw [hlast] at hy
    have hmem : (sqDist2 (d := 0) x y, a, b) ∈ treeLinks s.lastFrame fr tree maxDist s.lastFrame.length := by
      refine mem_treeLinks.2 ⟨x, y, hx, hy, rfl, hxy, ?_⟩
      refine ((query_lt hP hH r5 r6 _).2.2 b).2 ⟨y, hy, ?_⟩
      have hyr : 0 ≤ y.r := hr y (r7.sub.subset (List.mem_of_getElem? hy))
      exact close_overlaps hm (mul_nonneg hyr (by norm_num)) hxy
    obtain ⟨d', ⟨a', b'⟩, k1, k2, k3, k4⟩ := TrajMap.greedy_stable _
      (MIndex.sortedBonds_sorted _ _ _) ((hsb _ a b).2 hmem)
    rw [hsb] at k1
    obtain ⟨x', y', g1, g2, g3, g4, -⟩ := mem_treeLinks.1 k1
    refine ⟨a', b', x', y', (r8 a' b').2 k2, g1, by rw [hlast]; exact g2, ?_, k4⟩
    rw [← g3]
    exact k3

/-! ## C33 -/

/-- **C33**. `split_clusters` never faults. Each cluster gives a first part, which stays in place, and
pieces, which are appended at the end of the list, the last piece of the cluster first. The first part
followed by the pieces in order is the cluster. No piece is empty. -/
theorem C33_split (cls : List (List (Center 3 G))) :
    ∃ parts : List (List (Center 3 G) × List (List (Center 3 G))),
      splitClusters cls = .ok (parts.map Prod.fst ++ (parts.map Prod.snd).flatten) ∧
      parts.map (fun p => p.1 ++ p.2.reverse.flatten) = cls ∧
      (∀ p ∈ parts, (∀ x ∈ p.2, x ≠ []) ∧ (p.2 ≠ [] → p.1 ≠ [])) := by
  refine ⟨cls.map (fun c => cutPieces c (cutsOf c)), ?_, ?_, ?_⟩
  · rw [splitClusters_ok, List.map_map, List.map_map]; rfl
  · rw [List.map_map]
    conv_rhs => rw [← List.map_id cls]
    apply List.map_congr_left
    intro c _
    exact cutPieces_join _ _
  · intro p hp
    obtain ⟨c, -, rfl⟩ := List.mem_map.1 hp
    obtain ⟨f1, f2⟩ := cutsOf_facts c
    obtain ⟨g1, g2⟩ := cutPieces_ne (cutsOf c) c f1 (fun r hr => by
      have := (f2 r).1 hr; omega)
    refine ⟨g1, fun hne => g2 ?_⟩
    rintro rfl
    apply hne
    have : cutsOf ([] : List (Center 3 G)) = [] := by unfold cutsOf; rw [if_pos (by simp)]
    rw [this]; rfl

/-- **C33**, no center is lost or duplicated. -/
theorem C33_conserves (cls : List (List (Center 3 G))) :
    ∃ out, splitClusters cls = .ok out ∧ out.flatten.Perm cls.flatten := by
  obtain ⟨parts, h1, h2, -⟩ := C33_split cls
  refine ⟨_, h1, ?_⟩
  rw [← h2]
  clear h1 h2
  induction parts with
  | nil => simp
  | cons p ps ih =>
    simp only [List.map_cons, List.flatten_cons, List.flatten_append, List.cons_append] at ih ⊢
    have hrev : p.2.reverse.flatten.Perm p.2.flatten := (List.reverse_perm p.2).flatten
    -- head ++ (heads ++ (pieces ++ others)) ~ (head ++ pieces) ++ rest
    refine List.Perm.trans ?_ (List.Perm.append (List.Perm.append_left p.1 hrev.symm) ih)
    rw [List.append_assoc]
    refine List.Perm.append_left _ ?_
    rw [← List.append_assoc, ← List.append_assoc]
    exact List.Perm.append_right _ List.perm_append_comm

/-! ## C53 -/

/-- The cuts the comments of `split_clusters` announce ("look for local maxima of gradient"): positions
`i + 2` where the squared lateral displacement between the centers `i + 1` and `i + 3` is more than 1 and not
less than the one before and the one after. -/
def AnnouncedCut (c : List (Center 3 G)) (x : Nat) : Prop :=
  ∃ (i : Nat) (c0 c1 c2 c3 c4 : Center 3 G), x = i + 2 ∧ c[i]? = some c0 ∧ c[i + 1]? = some c1 ∧
    c[i + 2]? = some c2 ∧ c[i + 3]? = some c3 ∧ c[i + 4]? = some c4 ∧
    sqDist2 (d := 1) c0 c2 ≤ sqDist2 (d := 1) c1 c3 ∧ sqDist2 (d := 1) c2 c4 ≤ sqDist2 (d := 1) c1 c3 ∧
    1 < sqDist2 (d := 1) c1 c3

/-- `x` centers of the cluster precede one of its pieces. -/
def IsCut (p : List (Center 3 G) × List (List (Center 3 G))) (x : Nat) : Prop :=
  ∃ k, k < p.2.length ∧ x = (p.1 ++ (p.2.reverse.take k).flatten).length

/-- **C53**, what the code does. The gradient is the same number everywhere, so a cluster of at least
five centers is cut everywhere from 2 to its length minus 3 if its first and third centers are
more than 1 apart, and left untouched otherwise. -/
theorem C53_actual_cuts (cls : List (List (Center 3 G))) :
    ∃ parts : List (List (Center 3 G) × List (List (Center 3 G))),
      splitClusters cls = .ok (parts.map Prod.fst ++ (parts.map Prod.snd).flatten) ∧
      parts.map (fun p => p.1 ++ p.2.reverse.flatten) = cls ∧
      ∀ (i : Nat) (c : List (Center 3 G)) (p : List (Center 3 G) × List (List (Center 3 G))),
        cls[i]? = some c → parts[i]? = some p → ∀ x, IsCut p x ↔ 2 ≤ x ∧ x + 3 ≤ c.length ∧
          ∃ a b, c[0]? = some a ∧ c[2]? = some b ∧ 1 < sqDist2 (d := 1) a b := by
  refine ⟨cls.map (fun c => cutPieces c (cutsOf c)), ?_, ?_, ?_⟩
  · rw [splitClusters_ok, List.map_map, List.map_map]; rfl
  · rw [List.map_map]
    conv_rhs => rw [← List.map_id cls]
    apply List.map_congr_left
    intro c _
    exact cutPieces_join _ _
  · intro i c p hc hp x
    rw [List.getElem?_map, hc] at hp
    injection hp with hp
    subst hp
    obtain ⟨f1, f2⟩ := cutsOf_facts c
    unfold IsCut
    rw [cutPieces_cuts _ _ f1 (fun r hr => by have := (f2 r).1 hr; omega)]
    exact f2 x

/-- **C53**, partial: the cuts are the announced ones if the lateral displacement is the same all along
the cluster. Missing: all other clusters, see `C53_counterexample`. -/
theorem C53_uniform_partial (cls : List (List (Center 3 G)))
    (hu : ∀ c ∈ cls, ∀ (i : Nat) (a b a' b' : Center 3 G), c[0]? = some a → c[2]? = some b →
      c[i]? = some a' → c[i + 2]? = some b' → sqDist2 (d := 1) a b = sqDist2 (d := 1) a' b') :
    ∃ parts : List (List (Center 3 G) × List (List (Center 3 G))),
      splitClusters cls = .ok (parts.map Prod.fst ++ (parts.map Prod.snd).flatten) ∧
      parts.map (fun p => p.1 ++ p.2.reverse.flatten) = cls ∧
      ∀ (i : Nat) (c : List (Center 3 G)) (p : List (Center 3 G) × List (List (Center 3 G))),
        cls[i]? = some c → parts[i]? = some p → ∀ x, IsCut p x ↔ AnnouncedCut c x := by
  obtain ⟨parts, h1, h2, h3⟩ := C53_actual_cuts cls
  refine ⟨parts, h1, h2, ?_⟩
  intro i c p hc hp x
  have hu := hu c (List.mem_of_getElem? hc)
  rw [h3 i c p hc hp x]
  constructor
  · rintro ⟨x1, x2, a, b, ha, hb, hab⟩
    have g : ∀ j (hj : j < c.length), c[j]? = some c[j] := fun j hj => List.getElem?_eq_getElem hj
    have e0 := hu (x - 2) _ _ _ _ ha hb (g (x - 2) (by omega)) (g (x - 2 + 2) (by omega))
    have e1 := hu (x - 2 + 1) _ _ _ _ ha hb (g (x - 2 + 1) (by omega)) (g (x - 2 + 1 + 2) (by omega))
    have e2 := hu (x - 2 + 2) _ _ _ _ ha hb (g (x - 2 + 2) (by omega)) (g (x - 2 + 2 + 2) (by omega))
    refine ⟨x - 2, _, _, _, _, _, by omega, g _ (by omega), g _ (by omega), g _ (by omega),
      g _ (by omega), g _ (by omega), ?_, ?_, ?_⟩
    · rw [← e0]; exact le_of_eq e1
    · rw [← e2]; exact le_of_eq e1
    · rw [e1] at hab; exact hab
  · rintro ⟨i, c0, c1, c2, c3, c4, rfl, g0, g1, g2, g3, g4, -, -, h⟩
    have hl := (List.getElem?_eq_some_iff.1 g4).1
    refine ⟨by omega, by omega, c[0], c[2], List.getElem?_eq_getElem (by omega),
      List.getElem?_eq_getElem (by omega), ?_⟩
    rw [hu (i + 1) _ _ _ _ (List.getElem?_eq_getElem (by omega)) (List.getElem?_eq_getElem (by omega)) g1 g3]
    exact h

/-- Centers at the abscissas `xs`, one per frame. -/
def demoCluster (xs : List ℚ) : List (Center 3 ℚ) :=
  xs.zipIdx.map (fun xt => ⟨fun i => if i = 0 then xt.1 else if i = 1 then 0 else (xt.2 : ℚ), 1, 0⟩)

/-- **C53**, disagreement: a jump of 5 in the middle of a cluster is announced as a cut and ignored; a
jump at the beginning cuts a cluster also where nothing moves. -/
theorem C53_counterexample :
    (AnnouncedCut (demoCluster [0, 0, 0, 0, 5, 5, 5]) 3 ∧
      splitClusters [demoCluster [0, 0, 0, 0, 5, 5, 5]] = .ok [demoCluster [0, 0, 0, 0, 5, 5, 5]]) ∧
    (¬ AnnouncedCut (demoCluster [0, 0, 5, 5, 5, 5, 5]) 4 ∧
      ∃ p, splitClusters [demoCluster [0, 0, 5, 5, 5, 5, 5]] = .ok (p.1 :: p.2) ∧
        p.1 ++ p.2.reverse.flatten = demoCluster [0, 0, 5, 5, 5, 5, 5] ∧ IsCut p 4) := by
  refine ⟨⟨?_, ?_⟩, ?_, ?_⟩
  · refine ⟨1, _, _, _, _, _, rfl, rfl, rfl, rfl, rfl, rfl, ?_, ?_, ?_⟩ <;>
      norm_num [sqDist2]
  · obtain ⟨parts, h1, h2, h3⟩ := C53_actual_cuts [demoCluster [0, 0, 0, 0, 5, 5, 5]]
    have hlen := congrArg List.length h2
    rw [List.length_map] at hlen
    obtain ⟨p, rfl⟩ := List.length_eq_one_iff.1 hlen
    ·
      have hc := h3 0 _ p rfl rfl
      have hp : p.2 = [] := by
        by_contra hne
        have := List.length_pos_iff.2 hne
        obtain ⟨-, -, a, b, ha, hb, hab⟩ := (hc _).1 ⟨0, this, rfl⟩
        injection ha with ha
        injection hb with hb
        subst ha hb
        norm_num [sqDist2] at hab
      rw [h1]
      simp only [List.map_cons, List.map_nil, hp, List.flatten_cons, List.flatten_nil, List.append_nil,
        List.reverse_nil] at h2 ⊢
      rw [h2]
  · rintro ⟨i, c0, c1, c2, c3, c4, hx, g0, g1, g2, g3, g4, h1, h2, h3⟩
    have : i = 2 := by omega
    subst this
    injection g1 with g1
    injection g3 with g3
    subst g1 g3
    norm_num [sqDist2] at h3
  · obtain ⟨parts, h1, h2, h3⟩ := C53_actual_cuts [demoCluster [0, 0, 5, 5, 5, 5, 5]]
    have hlen := congrArg List.length h2
    rw [List.length_map] at hlen
    obtain ⟨p, rfl⟩ := List.length_eq_one_iff.1 hlen
    ·
      have hc := h3 0 _ p rfl rfl
      refine ⟨p, ?_, ?_, ?_⟩
      · rw [h1]; simp
      · simpa using h2
      · refine (hc 4).2 ⟨by omega, by simp [demoCluster], _, _, rfl, rfl, ?_⟩
        norm_num [sqDist2]

/-! ## C34 -/

/-- **C34**, tree version: the pairs closer than `max_dist`, each once, with their squared distance. The
tree is any tree that holds the boxes of the new frame. -/
theorem C34_tree {P : RParams G} {H : Heur 2 G} (hP : P.Valid) (hH : H.Valid P)
    (last fr : List (Center 2 G)) {tree : RTree 2 G Nat} {tol : G} (ht : RTree.Reachable P H false tree)
    (hc : tree.content.Perm (fr.zipIdx.map (fun ci => ⟨ci.1.getBB tol, ci.2⟩)))
    {maxDist : G} (hm : 0 ≤ maxDist) (htol : 0 ≤ tol) (hr : ∀ c ∈ fr, 0 ≤ c.r) :
    ∃ links, linksByRStarTree last fr tree maxDist = .ok links ∧ (links.map Prod.snd).Nodup ∧
      ∀ (δ : G) (p q : Nat), (δ, p, q) ∈ links ↔ ∃ x y, last[p]? = some x ∧ fr[q]? = some y ∧
        δ = sqDist2 (d := 0) x y ∧ δ < maxDist ^ 2 := by
  refine ⟨_, links_ok hP hH ht hc maxDist, treeLinks_nodup hP hH ht hc maxDist _, ?_⟩
  intro δ p q
  rw [mem_treeLinks]
  constructor
  · rintro ⟨x, y, h1, h2, h3, h4, -⟩
    simp only at h1 h2 h3
    exact ⟨x, y, h1, h2, h3, by rw [h3, pow_two]; exact h4⟩
  · rintro ⟨x, y, h1, h2, h3, h4⟩
    have h5 : sqDist2 (d := 0) x y < maxDist * maxDist := by rw [← h3, ← pow_two]; exact h4
    refine ⟨x, y, h1, h2, h3, h5, ?_⟩
    exact ((query_lt hP hH ht hc _).2.2 q).2 ⟨y, h2, close_overlaps hm
      (mul_nonneg (hr y (List.mem_of_getElem? h2)) htol) h5⟩

omit [IsStrictOrderedRing G] in
theorem mem_bruteForce {last fr : List (Center 2 G)} {tol : G} {δ : G} {p q : Nat} :
    (δ, p, q) ∈ linksByBruteForce last fr tol ↔ ∃ x y, last[p]? = some x ∧ fr[q]? = some y ∧
        δ = sqDist2 (d := 0) x y ∧ δ < ((x.r + y.r) * tol) ^ 2 := by
  unfold linksByBruteForce
  rw [List.mem_flatMap]
  constructor
  · rintro ⟨⟨x, f⟩, hx, h⟩
    obtain ⟨⟨y, t⟩, hy, h⟩ := List.mem_filterMap.1 h
    split at h
    · rename_i hlt
      injection h with h
      injection h with h1 h2
      injection h2 with h2 h3
      subst h1 h2 h3
      exact ⟨x, y, List.mk_mem_zipIdx_iff_getElem?.1 hx, List.mk_mem_zipIdx_iff_getElem?.1 hy, rfl, hlt⟩
    · cases h
  · rintro ⟨x, y, hx, hy, rfl, hlt⟩
    refine ⟨(x, p), List.mk_mem_zipIdx_iff_getElem?.2 hx, List.mem_filterMap.2
      ⟨(y, q), List.mk_mem_zipIdx_iff_getElem?.2 hy, ?_⟩⟩
    dsimp only
    rw [if_pos hlt]

omit [IsStrictOrderedRing G] in
theorem bruteForce_nodup (last fr : List (Center 2 G)) (tol : G) :
    ((linksByBruteForce last fr tol).map Prod.snd).Nodup := by
  unfold linksByBruteForce
  rw [List.map_flatMap]
  have one : ∀ xf : Center 2 G × Nat, ((fr.zipIdx.filterMap fun yt =>
      if sqDist2 (d := 0) xf.1 yt.1 < ((xf.1.r + yt.1.r) * tol) ^ 2 then
      some (sqDist2 (d := 0) xf.1 yt.1, xf.2, yt.2) else none).map Prod.snd).Nodup := by
    intro xf
    rw [List.map_filterMap]
    have hz : fr.zipIdx.Pairwise (fun a b => a.2 ≠ b.2) := by
      have h : (fr.zipIdx.map Prod.snd).Nodup := by rw [TrajMap.zipIdx_snd]; exact List.nodup_range'
      exact (List.pairwise_map.1 h)
    show List.Pairwise _ _
    rw [List.pairwise_filterMap]
    refine hz.imp ?_
    intro a b hab u hu v hv huv
    rw [Option.map_eq_some_iff] at hu hv
    obtain ⟨u', hu, rfl⟩ := hu
    obtain ⟨v', hv, rfl⟩ := hv
    split at hu
    · split at hv
      · injection hu with hu; injection hv with hv
        subst hu hv
        injection huv with _ h
        exact hab h
      · cases hv
    · cases hu
  have hz : last.zipIdx.Pairwise (fun a b => a.2 ≠ b.2) := by
    have h : (last.zipIdx.map Prod.snd).Nodup := by rw [TrajMap.zipIdx_snd]; exact List.nodup_range'
    exact (List.pairwise_map.1 h)
  rw [List.nodup_flatMap]
  refine ⟨fun xf _ => one xf, hz.imp ?_⟩
  intro a b hab
  show List.Disjoint _ _
  intro u hu hv
  dsimp only at hu hv
  obtain ⟨u', hu1, rfl⟩ := List.mem_map.1 hu
  obtain ⟨v', hv1, hvu⟩ := List.mem_map.1 hv
  obtain ⟨y, -, hu⟩ := List.mem_filterMap.1 hu1
  obtain ⟨z, -, hv⟩ := List.mem_filterMap.1 hv1
  split at hu
  · split at hv
    · injection hu with hu2; injection hv with hv2
      rw [← hu2, ← hv2] at hvu
      injection hvu with h _
      exact hab h.symm
    · cases hv
  · cases hu

omit [IsStrictOrderedRing G] in
/-- **C34**, brute force version: the pairs closer than `tolerance` times the sum of their radii, each
once. -/
theorem C34_brute_force (last fr : List (Center 2 G)) (tol : G) :
    ((linksByBruteForce last fr tol).map Prod.snd).Nodup ∧
      ∀ (δ : G) (p q : Nat), (δ, p, q) ∈ linksByBruteForce last fr tol ↔ ∃ x y, last[p]? = some x ∧
        fr[q]? = some y ∧ δ = sqDist2 (d := 0) x y ∧ δ < ((x.r + y.r) * tol) ^ 2 :=
  ⟨bruteForce_nodup last fr tol, fun _ _ _ => mem_bruteForce⟩

/-- **C34**, partial: the two versions give the same pairs with the same distances when the sums
of radii, times the tolerance, are all equal to the maximum distance. Missing: other frames, for
which the two versions differ, see `C34_counterexample`. -/
theorem C34_agree_partial {P : RParams G} {H : Heur 2 G} (hP : P.Valid) (hH : H.Valid P)
    (last fr : List (Center 2 G)) {tree : RTree 2 G Nat} {tol : G} (ht : RTree.Reachable P H false tree)
    (hc : tree.content.Perm (fr.zipIdx.map (fun ci => ⟨ci.1.getBB tol, ci.2⟩)))
    {maxDist tolerance : G} (hm : 0 ≤ maxDist) (htol : 0 ≤ tol) (hr : ∀ c ∈ fr, 0 ≤ c.r)
    (he : ∀ x ∈ last, ∀ y ∈ fr, (x.r + y.r) * tolerance = maxDist) :
    ∃ links, linksByRStarTree last fr tree maxDist = .ok links ∧
      links.Perm (linksByBruteForce last fr tolerance) := by
  obtain ⟨links, h1, h2, h3⟩ := C34_tree hP hH last fr ht hc hm htol hr
  refine ⟨links, h1, (List.perm_ext_iff_of_nodup (List.Nodup.of_map _ h2)
    (List.Nodup.of_map _ (bruteForce_nodup last fr tolerance))).2 ?_⟩
  rintro ⟨δ, p, q⟩
  rw [h3, mem_bruteForce]
  constructor
  · rintro ⟨x, y, a, b, c, d⟩
    exact ⟨x, y, a, b, c, by rw [he x (List.mem_of_getElem? a) y (List.mem_of_getElem? b)]; exact d⟩
  · rintro ⟨x, y, a, b, c, d⟩
    exact ⟨x, y, a, b, c, by rw [← he x (List.mem_of_getElem? a) y (List.mem_of_getElem? b)]; exact d⟩

/-- **C34**, disagreement, with the default arguments (1 for both): two centers of radius 1 at a distance
of 3/2 are linked by the brute force version only. -/
theorem C34_counterexample {P : RParams ℚ} {H : Heur 2 ℚ} (hP : P.Valid) (hH : H.Valid P) :
    ∃ (last fr : List (Center 2 ℚ)) (tree : RTree 2 ℚ Nat), RTree.Reachable P H false tree ∧
      tree.content.Perm (fr.zipIdx.map (fun ci => ⟨ci.1.getBB (1 / 2), ci.2⟩)) ∧
      linksByRStarTree last fr tree 1 = .ok [] ∧ linksByBruteForce last fr 1 = [(9 / 4, 0, 0)] := by
  obtain ⟨t, t1, t2, -⟩ := C12_step hP hH (tr := false) (RTree.Reachable.empty (α := Nat)) 0
    ((⟨fun i => if i = 0 then 3 / 2 else 0, 1, 0⟩ : Center 2 ℚ).getBB (1 / 2))
  have hR : RTree.Reachable P H false t := RTree.Reachable.insert _ _ RTree.Reachable.empty t1
  refine ⟨[⟨fun _ => 0, 1, 0⟩], [⟨fun i => if i = 0 then 3 / 2 else 0, 1, 0⟩], t, hR, t2, ?_, ?_⟩
  · obtain ⟨links, h1, -, h3⟩ := C34_tree hP hH [⟨fun _ => 0, 1, 0⟩]
      [⟨fun i => if i = 0 then 3 / 2 else 0, 1, 0⟩] hR t2 (maxDist := 1) (by norm_num) (by norm_num)
      (by intro c hc; simp at hc; subst hc; norm_num)
    rw [h1]
    congr 1
    rw [List.eq_nil_iff_forall_not_mem]
    rintro ⟨δ, p, q⟩ hm
    obtain ⟨x, y, a, b, c, d⟩ := (h3 δ p q).1 hm
    have a := List.mem_of_getElem? a
    have b := List.mem_of_getElem? b
    simp only [List.mem_singleton] at a b
    subst a b c
    norm_num [sqDist2] at d
  · norm_num [linksByBruteForce, sqDist2, List.filterMap_cons]

/-! ## C54 -/

/-- The center at the place of a blob: `pos` is counted from the beginning of the cluster. The
coordinates, the radius and the intensity are interpolated between two successive centers. -/
structure Interpolates (cl : List (Center 3 G)) (pos : Nat) (frac : G) (c : Center 3 G) : Prop where
  spec : ∃ a b, cl[pos]? = some a ∧ cl[pos + 1]? = some b ∧
    (∀ i : Fin 3, i ≠ 2 → c.coords i = (1 - frac) * a.coords i + frac * b.coords i) ∧
    c.coords 2 = (1 - frac) * a.coords 2 + frac * b.coords 2 - 1 / 2 ∧
    c.r = (1 - frac) * a.r + frac * b.r ∧
    c.intensity = (1 - frac) * a.intensity + frac * b.intensity

/-- What `get_blobs` returns for a blob at `pos + frac` in the signal of cluster `cl`. -/
def BlobOf (cl : List (Center 3 G)) (b : Nat × G) (o : Option (Center 3 G)) : Prop :=
  match o with
  | none => b.1 < cl.length ∨ 2 * cl.length < b.1
  | some c => cl.length ≤ b.1 ∧ b.1 < 2 * cl.length ∧
      (Interpolates cl (b.1 - cl.length) b.2 c ∨ (b.1 + 1 = 2 * cl.length ∧ cl.getLast? = some c))

omit [LinearOrder G] [IsStrictOrderedRing G] in
theorem blobCenter_spec {cl : List (Center 3 G)} {b : Nat × G} (h : b.1 ≠ 2 * cl.length) :
    ∃ o, blobCenter cl b = .ok o ∧ BlobOf cl b o := by
  unfold blobCenter
  by_cases h1 : b.1 < cl.length ∨ cl.length + cl.length < b.1
  · rw [if_pos h1]
    exact ⟨none, rfl, by simp only [BlobOf]; omega⟩
  · rw [if_neg h1]
    have hl : b.1 - cl.length < cl.length := by omega
    rw [getR_of_lt hl, ok_bind]
    cases hn : cl[b.1 - cl.length + 1]? with
    | none =>
      refine ⟨_, rfl, by omega, by omega, Or.inr ⟨?_, ?_⟩⟩
      · rw [List.getElem?_eq_none_iff] at hn; omega
      · rw [List.getElem?_eq_none_iff] at hn
        rw [List.getLast?_eq_getElem?, show cl.length - 1 = b.1 - cl.length by omega]
        exact List.getElem?_eq_getElem hl
    | some n =>
      refine ⟨_, rfl, by omega, by omega, Or.inl ⟨_, _, List.getElem?_eq_getElem hl, hn, ?_, ?_, ?_, ?_⟩⟩
      · intro i hi
        simp only [between, if_neg hi]; ring
      · simp only [between, if_pos]; ring
      · simp only [between]; ring
      · simp only [between]; ring

omit [LinearOrder G] [IsStrictOrderedRing G] in
/-- **C54**, partial. `finder` is any 1D finder. If it never returns a position exactly at the end of the
cluster in the padded signal, `get_blobs` does not fault, ignores the clusters of one center, the
blobs in the margins, and returns for each other blob, in order, one center interpolated between two
successive centers of the cluster. Missing: the blobs at the end (`C54_end`), and in the last frame of
the cluster, where neither the interpolation nor the shift of 1/2 is done (`C54_depth`). -/
theorem C54_blobs_partial (finder : List G → List (Nat × G)) (cls : List (List (Center 3 G)))
    (h : ∀ cl ∈ cls, 2 ≤ cl.length → ∀ b ∈ finder (paddedSignal cl), b.1 ≠ 2 * cl.length) :
    ∃ outs : List (List (Option (Center 3 G))),
      getBlobs finder cls = .ok (outs.flatMap (fun o => o.filterMap id)) ∧
      List.Forall₂ (fun cl o => if 2 ≤ cl.length then List.Forall₂ (BlobOf cl) (finder (paddedSignal cl)) o
        else o = []) cls outs := by
  have inner : ∀ (cl : List (Center 3 G)) (bs : List (Nat × G)), (∀ b ∈ bs, b.1 ≠ 2 * cl.length) →
      ∃ o, List.Forall₂ (BlobOf cl) bs o ∧ ∀ acc : List (Center 3 G), bs.foldlM (addBlob cl) acc = (.ok (acc ++ o.filterMap id) : R _) := by
    intro cl bs
    induction bs with
    | nil => intro _; exact ⟨[], List.Forall₂.nil, fun acc => by simp⟩
    | cons b bs ih =>
      intro hb
      obtain ⟨o, i1, i2⟩ := ih (fun b hb' => hb b (by simp [hb']))
      obtain ⟨x, e1, e2⟩ := blobCenter_spec (hb b (by simp))
      refine ⟨x :: o, List.Forall₂.cons e2 i1, ?_⟩
      intro acc
      rw [List.foldlM_cons, addBlob, e1, ok_bind]
      cases x with
      | none => simp only [pure_eq_ok, ok_bind, i2]; simp
      | some c => simp only [pure_eq_ok, ok_bind, i2]; simp
  unfold getBlobs
  have outer : ∀ (cls : List (List (Center 3 G))), (∀ cl ∈ cls, 2 ≤ cl.length →
      ∀ b ∈ finder (paddedSignal cl), b.1 ≠ 2 * cl.length) → ∃ outs : List (List (Option (Center 3 G))),
      List.Forall₂ (fun cl o => if 2 ≤ cl.length then List.Forall₂ (BlobOf cl) (finder (paddedSignal cl)) o
        else o = []) cls outs ∧ ∀ acc : List (Center 3 G), cls.foldlM (fun acc cl =>
      if cl.length * 3 < 6 then pure acc
      else (finder (paddedSignal cl)).foldlM (addBlob cl) acc) acc = (.ok (acc ++ outs.flatMap (fun o => o.filterMap id)) : R _) := by
    intro cls
    induction cls with
    | nil => intro _; exact ⟨[], List.Forall₂.nil, fun acc => by simp⟩
    | cons cl cls ih =>
      intro h
      obtain ⟨outs, i1, i2⟩ := ih (fun c hc => h c (by simp [hc]))
      by_cases hl : 2 ≤ cl.length
      · obtain ⟨o, j1, j2⟩ := inner cl _ (h cl (by simp) hl)
        refine ⟨o :: outs, List.Forall₂.cons (by rw [if_pos hl]; exact j1) i1, fun acc => ?_⟩
        rw [List.foldlM_cons, if_neg (by omega), j2, ok_bind, i2]
        simp
      · refine ⟨[] :: outs, List.Forall₂.cons (by rw [if_neg hl]) i1, fun acc => ?_⟩
        rw [List.foldlM_cons, if_pos (by omega), pure_eq_ok, ok_bind, i2]
        simp
  obtain ⟨outs, o1, o2⟩ := outer cls h
  exact ⟨outs, by rw [o2]; simp, o1⟩

omit [LinearOrder G] [IsStrictOrderedRing G] in
/-- **C54**, disagreement: the test lets a blob exactly at the end of the cluster through, and `end()` is
then dereferenced. -/
theorem C54_end (finder : List G → List (Nat × G)) (cl : List (Center 3 G)) (hl : 2 ≤ cl.length)
    (frac : G) (rest : List (Nat × G)) (hf : finder (paddedSignal cl) = (2 * cl.length, frac) :: rest)
    (cls : List (List (Center 3 G))) : getBlobs finder (cl :: cls) = .error .ub := by
  unfold getBlobs
  rw [List.foldlM_cons, if_neg (by omega), hf, List.foldlM_cons]
  have : blobCenter cl (2 * cl.length, frac) = .error .ub := by
    unfold blobCenter
    rw [if_neg (by simp only; omega), getR_eq_ub (by simp only; omega)]
    rfl
  rw [addBlob, this]
  rfl

omit [LinearOrder G] [IsStrictOrderedRing G] in
/-- **C54**, depth. In a cluster that starts at frame `s` (see `C32_clusters`), a blob at `pos + frac` of
the signal gets the depth `s + pos - margin + frac - 1/2`, but a blob in the last frame gets the depth
of that frame, `1/2` deeper and without its fractional part. -/
theorem C54_depth (cl : List (Center 3 G)) (s : Nat)
    (hz : ∀ (k : Nat) (c : Center 3 G), cl[k]? = some c → c.coords 2 = ((s + k : Nat) : G))
    (b : Nat × G) (c : Center 3 G) (h : BlobOf cl b (some c)) :
    (b.1 + 1 < 2 * cl.length → c.coords 2 = ((s + (b.1 - cl.length) : Nat) : G) + b.2 - 1 / 2) ∧
    (b.1 + 1 = 2 * cl.length → c.coords 2 = ((s + (b.1 - cl.length) : Nat) : G)) := by
  obtain ⟨h1, h2, h3⟩ := h
  constructor
  · intro hlt
    rcases h3 with ⟨a, n, ha, hn, -, hz2, -⟩ | ⟨h3, -⟩
    · rw [hz2, hz _ _ ha, hz _ _ hn]
      push_cast
      ring
    · omega
  · intro he
    rcases h3 with ⟨a, n, ha, hn, -⟩ | ⟨-, h3⟩
    · have := (List.getElem?_eq_some_iff.1 hn).1
      omega
    · rw [List.getLast?_eq_getElem?] at h3
      rw [hz _ _ h3]
      congr 2
      omega

omit [LinearOrder G] [IsStrictOrderedRing G] in
/-- **C54**, the signal given to the finder: three times as long as the cluster, the radius of the center
`i` at `length + i`, and on both sides nine tenths of the nearest radius. So the positions used by
`C54_blobs_partial` are those of the centers. -/
theorem C54_signal (cl : List (Center 3 G)) (a z : Center 3 G) (ha : cl.head? = some a)
    (hz : cl.getLast? = some z) :
    (paddedSignal cl).length = 3 * cl.length ∧
    (∀ (i : Nat) (c : Center 3 G), cl[i]? = some c → (paddedSignal cl)[cl.length + i]? = some c.r) ∧
    (∀ i, i < cl.length → (paddedSignal cl)[i]? = some (9 / 10 * a.r)) ∧
    (∀ i, i < cl.length → (paddedSignal cl)[2 * cl.length + i]? = some (9 / 10 * z.r)) := by
  unfold paddedSignal
  rw [ha, hz]
  dsimp only
  refine ⟨by simp; omega, ?_, ?_, ?_⟩
  · intro i c hc
    have := (List.getElem?_eq_some_iff.1 hc).1
    rw [List.getElem?_append_left (by simp; omega), List.getElem?_append_right (by simp)]
    simp [hc]
  · intro i hi
    rw [List.append_assoc, List.getElem?_append_left (by simp; omega), List.getElem?_replicate, if_pos hi]
  · intro i hi
    rw [List.getElem?_append_right (by simp; omega), List.getElem?_replicate, if_pos (by simp; omega)]

/-! ## The hypotheses are met -/

/-- The sort used in the examples. -/
def demoSort (l : List (Center 2 ℚ)) : List (Center 2 ℚ) :=
  l.mergeSort (fun a b => decide (a.intensity ≤ b.intensity))

theorem demoSort_sorts : Center.SortsByIntensity demoSort := by
  refine ⟨fun l => List.mergeSort_perm l _, fun l => ?_⟩
  have := List.pairwise_mergeSort (le := fun a b : Center 2 ℚ => decide (a.intensity ≤ b.intensity))
    (fun a b c h1 h2 => by simp at *; exact le_trans h1 h2)
    (fun a b => by simp; exact le_total _ _) l
  exact this.imp (by simp)

/-- C32 with the parameters and the heuristics of the code, two frames of two centers. -/
example : ∃ s, [([⟨fun _ => 0, 1, -2⟩, ⟨fun _ => 5, 1, -1⟩], 1), ([⟨fun _ => 1 / 2, 1, -2⟩, ⟨fun _ => 9, 1, -1⟩], 1)].foldlM
    (fun s c => pushBack (stdParams 1000 (1 / 1000)) (realHeur (stdParams 1000 (1 / 1000)) exSorter)
      demoSort s c.1 c.2) (new : Recon ℚ) = .ok s := by
  obtain ⟨-, s, -, h, -⟩ := C32_clusters (stdParams_valid (1000 : ℚ) (1 / 1000))
    (realHeur_valid (stdParams_valid _ _) (S := exSorter)
      ⟨fun _ _ l => List.mergeSort_perm l _, fun _ _ _ l => List.mergeSort_perm l _⟩ (by norm_num))
    demoSort_sorts [([⟨fun _ => 0, 1, -2⟩, ⟨fun _ => 5, 1, -1⟩], 1),
      ([⟨fun _ => 1 / 2, 1, -2⟩, ⟨fun _ => 9, 1, -1⟩], 1)] (by simp)
  exact ⟨s, h⟩

/-- A cluster for `C53_uniform_partial`, that is cut. -/
example : ∀ c ∈ [demoCluster [0, 1, 2, 3, 4, 5]], ∀ (i : Nat) (a b a' b' : Center 3 ℚ), c[0]? = some a →
    c[2]? = some b → c[i]? = some a' → c[i + 2]? = some b' → sqDist2 (d := 1) a b = sqDist2 (d := 1) a' b' := by
  intro c hc i a b a' b' h1 h2 h3 h4
  simp only [List.mem_singleton] at hc
  subst hc
  have hi : i + 2 < 6 := by simpa [demoCluster] using (List.getElem?_eq_some_iff.1 h4).1
  injection h1 with h1
  injection h2 with h2
  subst h1 h2
  match i, hi with
  | 0, _ | 1, _ | 2, _ | 3, _ =>
    injection h3 with h3
    injection h4 with h4
    subst h3 h4
    norm_num [sqDist2]

/-- A finder for `C54_blobs_partial`, and one for `C54_end`. -/
example : (∀ cl ∈ [demoCluster [0, 1, 2]], 2 ≤ cl.length → ∀ b ∈ [((4 : Nat), (1 / 2 : ℚ))],
    b.1 ≠ 2 * cl.length) ∧ (2 * (demoCluster [0, 1, 2]).length = 6) := by
  simp [demoCluster]

end Recon
end Colloids
