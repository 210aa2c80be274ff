import Verif.DynClusters.Props
import Verif.Dyn.AvgProps
import Mathlib.Tactic.Linarith

/-! # C93, C94 : the boxes around the clusters, and the files

Vocabulary: `Exists D tr t` : the trajectory `tr` exists at time `t`; `Dyn.at_ D tr t` : its position
there. -/

namespace Colloids
namespace DynClusters
open Dyn

variable {G : Type} [Field G] [LinearOrder G] {D : DynParts G} {pop : List Nat}

/-- The position of a trajectory that exists, anything otherwise. -/
noncomputable def posOf (D : DynParts G) (t tr : Nat) : Coord G :=
  match at_ D tr t with
  | .ok x => x
  | .error _ => 0

theorem posOf_eq (h : Wf D) {tr t : Nat} (he : Exists D tr t) : at_ D tr t = .ok (posOf D t tr) := by
  obtain ⟨x, hx⟩ := (at_ok h).1 he
  unfold posOf
  rw [hx]

omit [Field G] [LinearOrder G] in
theorem exist_true (h : Wf D) {tr t : Nat} (he : Exists D tr t) :
    ∃ T, getR D.trajectories.trajs tr = .ok T ∧ T.exist t = true := by
  obtain ⟨T, h1, h2⟩ := he
  have hT := List.mem_of_getElem? h1
  exact ⟨T, getR_ok.2 h1, (exist_iff (h.nonempty T hT) (h.fits' hT) t).2 h2⟩

omit [Field G] [LinearOrder G] in
theorem exist_false (h : Wf D) {tr t : Nat} (hlt : tr < D.trajectories.trajs.length) (he : ¬ Exists D tr t) :
    ∃ T, getR D.trajectories.trajs tr = .ok T ∧ T.exist t = false := by
  refine ⟨_, getR_of_lt hlt, ?_⟩
  have hT : D.trajectories.trajs[tr] ∈ D.trajectories.trajs := List.getElem_mem hlt
  rw [← Bool.not_eq_true, exist_iff (h.nonempty _ hT) (h.fits' hT) t]
  exact fun hh => he ⟨_, List.getElem?_eq_getElem hlt, hh⟩

/-- The loop of `bounds` on members that all exist. -/
theorem bounds_loop (h : Wf D) {t : Nat} : ∀ (l : List Nat) (b : Box 3 G), (∀ tr ∈ l, Exists D tr t) →
    l.foldlM (fun (b : Box 3 G) (tr : Nat) => do
        let T ← getR D.trajectories.trajs tr
        if T.exist t then do
          let x ← Dyn.at_ D tr t
          pure (b.stretch (Particles.bounds x D.radius))
        else throw Fault.invalidArgument) b =
      .ok (l.foldl (fun b tr => b.stretch (Particles.bounds (posOf D t tr) D.radius)) b) := by
  intro l
  induction l with
  | nil => intro b _; rfl
  | cons tr l ih =>
    intro b hl
    have he := hl tr (by simp)
    obtain ⟨T, hT, hex⟩ := exist_true h he
    rw [List.foldlM_cons, List.foldl_cons, hT, ok_bind, if_pos hex, posOf_eq h he, ok_bind, pure_eq_ok, ok_bind]
    exact ih _ (fun x hx => hl x (by simp [hx]))

omit [Field G] in
theorem stretch_tight {f : Nat → Box 3 G} (a : Fin 3) : ∀ (l : List Nat) (b : Box 3 G),
    ((l.foldl (fun b i => b.stretch (f i)) b).lo a = b.lo a ∨
      ∃ i ∈ l, (l.foldl (fun b i => b.stretch (f i)) b).lo a = (f i).lo a) ∧
    ((l.foldl (fun b i => b.stretch (f i)) b).hi a = b.hi a ∨
      ∃ i ∈ l, (l.foldl (fun b i => b.stretch (f i)) b).hi a = (f i).hi a) := by
  intro l
  induction l with
  | nil => intro b; simp
  | cons i l ih =>
    intro b
    rw [List.foldl_cons]
    obtain ⟨h1, h2⟩ := ih (b.stretch (f i))
    rw [Box.stretch_lo] at h1
    rw [Box.stretch_hi] at h2
    constructor
    · rcases h1 with h1 | ⟨j, hj, h1⟩
      · rcases min_choice (b.lo a) ((f i).lo a) with e | e
        · exact Or.inl (by rw [h1, e])
        · exact Or.inr ⟨i, by simp, by rw [h1, e]⟩
      · exact Or.inr ⟨j, by simp [hj], h1⟩
    · rcases h2 with h2 | ⟨j, hj, h2⟩
      · rcases max_choice (b.hi a) ((f i).hi a) with e | e
        · exact Or.inl (by rw [h2, e])
        · exact Or.inr ⟨i, by simp, by rw [h2, e]⟩
      · exact Or.inr ⟨j, by simp [hj], h2⟩

/-- The box of a cluster is the smallest that contains all the particles with their radius. -/
theorem C93_bounds (h : Wf D) (cluster : List Nat) (t : Nat) (hne : cluster ≠ [])
    (hex : ∀ tr ∈ cluster, Exists D tr t) : ∃ b, bounds D cluster t = .ok b ∧ ∀ a,
      (∀ tr ∈ cluster, ∀ x, at_ D tr t = .ok x → b.lo a ≤ x a - D.radius ∧ x a + D.radius ≤ b.hi a) ∧
      (∃ tr ∈ cluster, ∃ x, at_ D tr t = .ok x ∧ b.lo a = x a - D.radius) ∧
      (∃ tr ∈ cluster, ∃ x, at_ D tr t = .ok x ∧ b.hi a = x a + D.radius) := by
  match cluster, hne with
  | first :: l, _ =>
    obtain ⟨T, hT, he⟩ := exist_true h (hex first (by simp))
    refine ⟨(first :: l).foldl (fun b tr => b.stretch (Particles.bounds (posOf D t tr) D.radius))
        (Particles.bounds (posOf D t first) D.radius), ?_, ?_⟩
    · unfold bounds
      simp only
      rw [hT, ok_bind, if_neg (by simp [he]), posOf_eq h (hex first (by simp)), ok_bind]
      exact bounds_loop h _ _ hex
    · intro a
      refine ⟨?_, ?_, ?_⟩
      · intro tr htr x hx
        have := (Box.foldl_stretch_contains (fun tr => Particles.bounds (posOf D t tr) D.radius) (first :: l)
          (Particles.bounds (posOf D t first) D.radius)).2 tr htr a
        rw [posOf_eq h (hex tr htr)] at hx
        cases hx
        exact this
      · rcases (stretch_tight (f := fun tr => Particles.bounds (posOf D t tr) D.radius) a (first :: l)
          (Particles.bounds (posOf D t first) D.radius)).1 with e | ⟨i, hi, e⟩
        · exact ⟨first, by simp, _, posOf_eq h (hex first (by simp)), e⟩
        · exact ⟨i, hi, _, posOf_eq h (hex i hi), e⟩
      · rcases (stretch_tight (f := fun tr => Particles.bounds (posOf D t tr) D.radius) a (first :: l)
          (Particles.bounds (posOf D t first) D.radius)).2 with e | ⟨i, hi, e⟩
        · exact ⟨first, by simp, _, posOf_eq h (hex first (by simp)), e⟩
        · exact ⟨i, hi, _, posOf_eq h (hex i hi), e⟩

/-- A cluster with a trajectory that does not exist at this time is refused. -/
theorem C93_missing (h : Wf D) (cluster : List Nat) (t : Nat)
    (hk : ∀ tr ∈ cluster, tr < D.trajectories.trajs.length) (tr : Nat) (htr : tr ∈ cluster)
    (he : ¬ Exists D tr t) : bounds D cluster t = .error .invalidArgument := by
  match cluster with
  | [] => simp at htr
  | first :: l =>
    unfold bounds
    simp only
    by_cases hf : Exists D first t
    · obtain ⟨T, hT, hex⟩ := exist_true h hf
      rw [hT, ok_bind, if_neg (by simp [hex]), posOf_eq h hf, ok_bind]
      have key : ∀ (l : List Nat) (b : Box 3 G), (∀ tr ∈ l, tr < D.trajectories.trajs.length) → tr ∈ l →
          l.foldlM (fun (b : Box 3 G) (tr : Nat) => do
            let T ← getR D.trajectories.trajs tr
            if T.exist t then do
              let x ← Dyn.at_ D tr t
              pure (b.stretch (Particles.bounds x D.radius))
            else throw Fault.invalidArgument) b = .error .invalidArgument := by
        intro l
        induction l with
        | nil => intro b _ hm; simp at hm
        | cons x l ih =>
          intro b hl hm
          rw [List.foldlM_cons]
          by_cases hx : Exists D x t
          · obtain ⟨T, hT, hex⟩ := exist_true h hx
            rw [hT, ok_bind, if_pos hex, posOf_eq h hx, ok_bind, pure_eq_ok, ok_bind]
            refine ih _ (fun y hy => hl y (by simp [hy])) ?_
            rcases List.mem_cons.1 hm with rfl | hm
            · exact absurd hx he
            · exact hm
          · obtain ⟨T, hT, hex⟩ := exist_false h (hl x (by simp)) hx
            rw [hT, ok_bind, if_neg (by simp [hex])]
            rfl
      exact key _ _ hk htr
    · obtain ⟨T, hT, hex⟩ := exist_false h (hk first (by simp)) hf
      rw [hT, ok_bind, if_pos (by simp [hex])]
      rfl

/-- The box of a cluster without any member is undefined. -/
theorem C93_empty (t : Nat) : bounds D [] t = .error .ub := rfl

section order
variable [IsStrictOrderedRing G]

/-- The largest extents, dimension by dimension, of the clusters of a time. -/
theorem C93_largest (h : Wf D) (members : List (List (List Nat))) (t : Nat) (ms : List (List Nat))
    (ht : members[t]? = some ms) (hex : ∀ K ∈ ms, K ≠ [] ∧ ∀ tr ∈ K, Exists D tr t) :
    ∃ m, getLargestDelta D members t = .ok m ∧ ∀ a, 0 ≤ m a ∧
      (∀ K ∈ ms, ∀ tr ∈ K, ∀ tr' ∈ K, ∀ x x', at_ D tr t = .ok x → at_ D tr' t = .ok x' →
        x a - x' a + 2 * D.radius ≤ m a) ∧
      (m a = 0 ∨ ∃ K ∈ ms, ∃ tr ∈ K, ∃ tr' ∈ K, ∃ x x', at_ D tr t = .ok x ∧ at_ D tr' t = .ok x' ∧
        m a = x a - x' a + 2 * D.radius) := by
  unfold getLargestDelta
  rw [getR_ok.2 ht, ok_bind]
  clear ht
  induction ms using List.reverseRecOn with
  | nil =>
    refine ⟨0, rfl, fun a => ⟨le_refl _, by simp, Or.inl rfl⟩⟩
  | append_singleton ms K ih =>
    obtain ⟨m, hm, hprop⟩ := ih (fun K hK => hex K (by simp [hK]))
    obtain ⟨hne, hK⟩ := hex K (by simp)
    obtain ⟨b, hb, hbox⟩ := C93_bounds h K t hne hK
    refine ⟨fun d => if m d < b.hi d - b.lo d then b.hi d - b.lo d else m d, ?_, ?_⟩
    · rw [foldlM_append_ok]
      refine ⟨m, hm, ?_⟩
      rw [List.foldlM_cons, hb]
      rfl
    · intro a
      obtain ⟨p1, p2, p3⟩ := hprop a
      obtain ⟨b1, ⟨tl, htl, xl, hxl, el⟩, ⟨th, hth, xh, hxh, eh⟩⟩ := hbox a
      have hge : m a ≤ (if m a < b.hi a - b.lo a then b.hi a - b.lo a else m a) ∧
          b.hi a - b.lo a ≤ (if m a < b.hi a - b.lo a then b.hi a - b.lo a else m a) := by
        split
        · rename_i hlt; exact ⟨le_of_lt hlt, le_refl _⟩
        · rename_i hlt; exact ⟨le_refl _, not_lt.1 hlt⟩
      refine ⟨le_trans p1 hge.1, ?_, ?_⟩
      · intro K' hK' tr htr tr' htr' x x' hx hx'
        rcases List.mem_append.1 hK' with hK' | hK'
        · exact le_trans (p2 K' hK' tr htr tr' htr' x x' hx hx') hge.1
        · rw [List.mem_singleton] at hK'
          subst hK'
          have h1 := (b1 tr htr x hx).2
          have h2 := (b1 tr' htr' x' hx').1
          refine le_trans ?_ hge.2
          linarith
      · show (if m a < b.hi a - b.lo a then b.hi a - b.lo a else m a) = 0 ∨ _
        by_cases hlt : m a < b.hi a - b.lo a
        · right
          refine ⟨K, by simp, th, hth, tl, htl, xh, xl, hxh, hxl, ?_⟩
          show (if m a < b.hi a - b.lo a then b.hi a - b.lo a else m a) = _
          rw [if_pos hlt, eh, el]
          ring
        · rw [if_neg hlt]
          rcases p3 with p3 | ⟨K', hK', tr, htr, tr', htr', x, x', hx, hx', e⟩
          · exact Or.inl p3
          · right
            refine ⟨K', by simp [hK'], tr, htr, tr', htr', x, x', hx, hx', ?_⟩
            show (if m a < b.hi a - b.lo a then b.hi a - b.lo a else m a) = _
            rw [if_neg hlt, e]

end order

/-- The clusters found by `assign` all have their box. -/
theorem C93_assigned (h : Good D pop) (members : List (List (List Nat))) (ti : TrajIndex)
    (e : assign D pop [] = .ok (members, ti)) (t : Nat) (ms : List (List Nat)) (K : List Nat)
    (ht : members[t]? = some ms) (hK : K ∈ ms) : ∃ b, bounds D K t = .ok b := by
  have hn : D.positions ≠ [] := by
    intro hn
    rw [C90_no_time_step hn] at e
    cases e
  obtain ⟨m, ti', h1, -, hI⟩ := C90_members h hn
  rw [e] at h1
  cases h1
  have h2 := ((hI t ms ht).1 K hK).2
  obtain ⟨b, hb, -⟩ := C93_bounds h.wf K t (by rintro rfl; simp at h2)
    (fun tr htr => (C90_exist h members ti e t ms K tr ht hK htr).2)
  exact ⟨b, hb⟩

/-- A pair at the first time of the example. -/
example : ∃ b, bounds exBonds [0, 1] 0 = .ok b ∧ (∃ tr ∈ [0, 1], ∃ x, at_ exBonds tr 0 = .ok x ∧
    b.lo 0 = x 0 - exBonds.radius) := by
  obtain ⟨b, hb, hp⟩ := C93_bounds exBonds_wf [0, 1] 0 (by simp) (by
    intro tr htr
    rcases List.mem_cons.1 htr with rfl | htr
    · exact ⟨_, rfl, by decide, by decide⟩
    · rw [List.mem_singleton] at htr
      subst htr
      exact ⟨_, rfl, by decide, by decide⟩)
  exact ⟨b, hb, (hp 0).2.1⟩

/-! ## C94 : the files -/

/-- `n` numbers read one after the other by `operator>>`. -/
def readList : Nat → IStream → IStream × List Nat
  | 0, s => (s, [])
  | n + 1, s =>
    let (s1, v) := s.readNat 0
    let (s2, vs) := readList n s1
    (s2, v :: vs)

/-- A label, a size, and as many numbers. -/
def readCluster (s : IStream) : IStream × (Nat × List Nat) :=
  let (s1, label) := s.readNat 0
  let (s2, n) := s1.readNat 0
  let (s3, ps) := readList n s2
  (s3, (label, ps))

/-- `n` clusters. -/
def readClusters : Nat → IStream → IStream × List (Nat × List Nat)
  | 0, s => (s, [])
  | n + 1, s =>
    let (s1, v) := readCluster s
    let (s2, vs) := readClusters n s1
    (s2, v :: vs)

/-- What a program that knows the format reads from a file: a number of clusters, then the clusters.
`none` if a number is missing or too large. -/
def readFile (text : List Char) : Option (List (Nat × List Nat)) :=
  let (s, n) := ({ rest := text } : IStream).readNat 0
  let (s', l) := readClusters n s
  if s'.fail then none else some l

def lineText (e : Nat × List Nat) : List Char :=
  showNat e.1 ++ ['\t'] ++ showNat e.2.length ++ ['\t'] ++ (e.2.map (fun p => showNat p ++ ['\t'])).flatten ++ ['\n']

theorem readList_text : ∀ (ps : List Nat) (r : List Char), (∀ p ∈ ps, p < szMod) →
    readList ps.length { rest := '\t' :: ((ps.map (fun p => showNat p ++ ['\t'])).flatten ++ r) } =
      ({ rest := '\t' :: r }, ps) := by
  intro ps
  induction ps with
  | nil => intro r _; rfl
  | cons p ps ih =>
    intro r hb
    have htxt : '\t' :: (((p :: ps).map (fun p => showNat p ++ ['\t'])).flatten ++ r) =
        ['\t'] ++ (showNat p ++ ('\t' :: ((ps.map (fun p => showNat p ++ ['\t'])).flatten ++ r))) := by
      simp
    rw [htxt, List.length_cons, readList, readNat_show ['\t'] (by simp [isSpace]) p (hb p (by simp)) _
      (by simp) 0]
    simp only [List.isEmpty_cons]
    rw [ih r (fun x hx => hb x (by simp [hx]))]

theorem readCluster_text (ws : List Char) (hws : ∀ c ∈ ws, isSpace c = true) (e : Nat × List Nat)
    (h1 : e.1 < szMod) (h2 : e.2.length < szMod) (h3 : ∀ p ∈ e.2, p < szMod) (r : List Char) :
    readCluster { rest := ws ++ (lineText e ++ r) } = ({ rest := '\t' :: '\n' :: r }, e) := by
  have htxt : ws ++ (lineText e ++ r) = ws ++ (showNat e.1 ++ ('\t' :: (showNat e.2.length ++
      ('\t' :: ((e.2.map (fun p => showNat p ++ ['\t'])).flatten ++ ('\n' :: r)))))) := by
    simp [lineText]
  unfold readCluster
  rw [htxt, readNat_show ws hws e.1 h1 _ (by simp) 0]
  simp only [List.isEmpty_cons]
  have := readNat_show ['\t'] (by simp [isSpace]) e.2.length h2
    ('\t' :: ((e.2.map (fun p => showNat p ++ ['\t'])).flatten ++ ('\n' :: r))) (by simp) 0
  rw [List.singleton_append] at this
  rw [this]
  simp only [List.isEmpty_cons]
  rw [readList_text e.2 _ h3]

theorem readClusters_text : ∀ (es : List (Nat × List Nat)) (ws : List Char) (_ : ∀ c ∈ ws, isSpace c = true),
    (∀ e ∈ es, e.1 < szMod ∧ e.2.length < szMod ∧ ∀ p ∈ e.2, p < szMod) →
    ∃ s, readClusters es.length { rest := ws ++ (es.map lineText).flatten } = (s, es) ∧ s.fail = false := by
  intro es
  induction es with
  | nil => intro ws _ _; exact ⟨_, rfl, rfl⟩
  | cons e es ih =>
    intro ws hws hb
    obtain ⟨h1, h2, h3⟩ := hb e (by simp)
    obtain ⟨s, hs, hf⟩ := ih ['\t', '\n'] (by simp [isSpace]) (fun x hx => hb x (by simp [hx]))
    refine ⟨s, ?_, hf⟩
    rw [List.map_cons, List.flatten_cons, List.length_cons, readClusters, readCluster_text ws hws e h1 h2 h3]
    simp only
    rw [show '\t' :: '\n' :: (es.map lineText).flatten = ['\t', '\n'] ++ (es.map lineText).flatten from rfl, hs]

theorem readFile_text (es : List (Nat × List Nat)) (hl : es.length < szMod)
    (hb : ∀ e ∈ es, e.1 < szMod ∧ e.2.length < szMod ∧ ∀ p ∈ e.2, p < szMod) :
    readFile (showNat es.length ++ ['\n'] ++ (es.map lineText).flatten) = some es := by
  unfold readFile
  have := readNat_show [] (by simp) es.length hl ('\n' :: (es.map lineText).flatten) (by simp) 0
  rw [List.nil_append] at this
  rw [List.append_assoc, List.singleton_append, this]
  simp only [List.isEmpty_cons]
  obtain ⟨s, hs, hf⟩ := readClusters_text es ['\n'] (by simp [isSpace]) hb
  rw [List.singleton_append] at hs
  rw [hs]
  simp [hf]

/-- The position of a trajectory in the file of its time. -/
def rankOf (D : DynParts G) (t tr : Nat) : Nat :=
  match D.trajectories.convert t tr with
  | .ok p => p
  | .error _ => 0

omit [Field G] [LinearOrder G] in
theorem rankOf_eq (h : Wf D) {tr t : Nat} (he : Exists D tr t) :
    D.trajectories.convert t tr = .ok (rankOf D t tr) := by
  obtain ⟨p, hp⟩ := (exists_iff_convert h).1 he
  unfold rankOf
  rw [hp]

omit [Field G] [LinearOrder G] in
theorem saveLine_eq (h : Wf D) {t label : Nat} {k : List Nat} (he : ∀ tr ∈ k, Exists D tr t) :
    saveLine D t label k = .ok (lineText (label, k.map (rankOf D t))) := by
  unfold saveLine lineText
  rw [TreeIndex.mapM_ok_of _ (rankOf D t) k (fun tr htr => rankOf_eq h (he tr htr)), ok_bind, pure_eq_ok]
  simp

omit [Field G] [LinearOrder G] in
theorem saveFrame_eq (h : Wf D) {members : List (List (List Nat))} {ti : TrajIndex} {t : Nat}
    {ms : List (List Nat)} {labels : List Nat} (ht : members[t]? = some ms)
    (hi : ti.inverse[t]? = some labels) (hlen : labels.length = ms.length)
    (he : ∀ k ∈ ms, ∀ tr ∈ k, Exists D tr t) :
    saveFrame D members ti t = .ok (showNat labels.length ++ ['\n'] ++
      ((labels.zip (ms.map (fun k => k.map (rankOf D t)))).map lineText).flatten) := by
  unfold saveFrame
  rw [getR_ok.2 hi, ok_bind]
  have key : ∀ n ≤ labels.length, (List.range n).foldlM (fun (out : List Char) (K : Nat) => do
      let label ← getR labels K
      let ms ← getR members t
      let k ← getR ms K
      let line ← saveLine D t label k
      pure (out ++ line)) (showNat labels.length ++ ['\n']) = .ok (showNat labels.length ++ ['\n'] ++
        (((labels.zip (ms.map (fun k => k.map (rankOf D t)))).take n).map lineText).flatten) := by
    intro n
    induction n with
    | zero => intro _; simp [pure_eq_ok]
    | succ n ih =>
      intro hn
      have h1 : n < labels.length := by omega
      have h2 : n < ms.length := by omega
      rw [List.range_succ, foldlM_append_ok]
      refine ⟨_, ih (by omega), ?_⟩
      rw [List.foldlM_cons, getR_of_lt h1, ok_bind, getR_ok.2 ht, ok_bind, getR_of_lt h2, ok_bind,
        saveLine_eq h (he _ (List.getElem_mem h2)), ok_bind, pure_eq_ok, ok_bind, List.foldlM_nil, pure_eq_ok]
      refine congrArg Except.ok ?_
      have h3 : n < (labels.zip (ms.map (fun k => k.map (rankOf D t)))).length := by
        simp; omega
      rw [List.take_succ_eq_append_getElem h3]
      simp
  have := key labels.length (Nat.le_refl _)
  rw [List.take_of_length_le (by simp)] at this
  exact this

/-- The trajectories of the clusters cover exactly the clusters. -/
theorem assign_inverse (h : Good D pop) (members : List (List (List Nat))) (ti : TrajIndex)
    (e : assign D pop [] = .ok (members, ti)) : members.length = D.positions.length ∧
      ti.inverse.map List.length = members.map List.length := by
  have hn : D.positions ≠ [] := by
    intro hn
    rw [C90_no_time_step hn] at e
    cases e
  obtain ⟨m, ti', tm, h1, hlen, hA, h3, hof, hrun, hsz⟩ := assign_fresh h hn
  rw [e] at h1
  cases h1
  obtain ⟨ti', hof', _, _, hfs, -⟩ := index_facts hrun hsz
  rw [hof] at hof'
  cases hof'
  obtain ⟨z1, -⟩ := C01_one_to_one _ _ tm hrun
  have hpos := List.length_pos_iff.2 hn
  refine ⟨hlen, ?_⟩
  rw [hfs, z1, histOf_sizes, show D.positions.length - 1 + 1 = members.length by omega]
  apply List.ext_getElem
  · simp
  · intro i k1 k2
    simp at k1
    simp [k1]

/-- The clusters of a time have together at most as many members as there are positions. -/
theorem flatten_length_le (h : Wf D) {t : Nat} {ms : List (List Nat)} {ps : Particles G}
    (hps : D.positions[t]? = some ps) (hs : ∀ K ∈ ms, K.Pairwise (· < ·))
    (hd : ms.Pairwise (fun C E => ∀ x ∈ C, x ∉ E)) (he : ∀ k ∈ ms, ∀ tr ∈ k, Exists D tr t) :
    ms.flatten.length ≤ ps.pos.length := by
  have hnd : ms.flatten.Nodup := by
    rw [List.nodup_flatten]
    refine ⟨fun K hK => (hs K hK).imp (fun h => Nat.ne_of_lt h), hd.imp ?_⟩
    intro C E hCE x hx hx'
    exact hCE x hx hx'
  have hex : ∀ tr ∈ ms.flatten, Exists D tr t := by
    intro tr htr
    obtain ⟨k, hk, h1⟩ := List.mem_flatten.1 htr
    exact he k hk tr h1
  have hnd' : (ms.flatten.map (rankOf D t)).Nodup := by
    refine List.Nodup.map_on ?_ hnd
    intro a ha b hb hab
    have h1 := rankOf_eq h (hex a ha)
    have h2 := rankOf_eq h (hex b hb)
    rw [← hab] at h2
    exact convert_inj h h1 h2
  have hsub : ∀ p ∈ ms.flatten.map (rankOf D t), p ∈ List.range ps.pos.length := by
    intro p hp
    obtain ⟨tr, htr, rfl⟩ := List.mem_map.1 hp
    obtain ⟨ps', x, hps', hx, -⟩ := at_of_convert h (rankOf_eq h (hex tr htr))
    rw [hps] at hps'
    cases hps'
    exact List.mem_range.2 (List.getElem?_eq_some_iff.1 hx).1
  have := (List.subperm_of_subset hnd' hsub).length_le
  rwa [List.length_map, List.length_range] at this

theorem length_le_flatten : ∀ {ms : List (List Nat)}, (∀ K ∈ ms, 2 ≤ K.length) → ms.length ≤ ms.flatten.length ∧
    ∀ K ∈ ms, K.length ≤ ms.flatten.length := by
  intro ms
  induction ms with
  | nil => intro _; simp
  | cons K ms ih =>
    intro h
    obtain ⟨h1, h2⟩ := ih (fun x hx => h x (by simp [hx]))
    have := h K (by simp)
    simp only [List.length_cons, List.flatten_cons, List.length_append]
    refine ⟨by omega, ?_⟩
    intro x hx
    rcases List.mem_cons.1 hx with rfl | hx
    · omega
    · have := h2 x hx
      omega

theorem sum_map_le {α β : Type} {f : α → Nat} {g : β → Nat} : ∀ {l : List α} {l' : List β}, l.length = l'.length →
    (∀ (i : Nat) (x : α) (y : β), l[i]? = some x → l'[i]? = some y → f x ≤ g y) → (l.map f).sum ≤ (l'.map g).sum := by
  intro l
  induction l with
  | nil => intro l' h _; simp
  | cons x l ih =>
    intro l' h hle
    match l' with
    | [] => simp at h
    | y :: l' =>
      have h1 := hle 0 x y rfl rfl
      have h2 := ih (l' := l') (by simpa using h) (fun i a b ha hb => hle (i + 1) a b (by simpa using ha) (by simpa using hb))
      simp only [List.map_cons, List.sum_cons]
      omega

/-- All the numbers that `save` writes are at most the number of positions of the whole experiment. -/
theorem numbers_fit (h : Good D pop) (members : List (List (List Nat))) (ti : TrajIndex)
    (e : assign D pop [] = .ok (members, ti)) {N : Nat} (hN : (D.positions.map (fun ps => ps.pos.length)).sum < N) :
    (∀ ps ∈ D.positions, ps.pos.length < N) ∧ (∀ ms ∈ members, ms.length < N ∧ ∀ K ∈ ms, K.length < N) ∧
    ∀ t K c, ti.invert t K = .ok c → c < N := by
  have hn : D.positions ≠ [] := by
    intro hn
    rw [C90_no_time_step hn] at e
    cases e
  obtain ⟨hlen, hinv⟩ := assign_inverse h members ti e
  obtain ⟨m, ti', tm, h1, -, hA, h3, hof, hrun, hsz⟩ := assign_fresh h hn
  rw [e] at h1
  cases h1
  have hpos : ∀ ps ∈ D.positions, ps.pos.length < N := by
    intro ps hps
    have := List.le_sum_of_mem (List.mem_map_of_mem (f := fun ps : Particles G => ps.pos.length) hps)
    omega
  have hfr : ∀ (t : Nat) (ms : List (List Nat)) (ps : Particles G), members[t]? = some ms → D.positions[t]? = some ps → ms.length ≤ ps.pos.length ∧
      ∀ K ∈ ms, K.length ≤ ps.pos.length := by
    intro t ms ps ht hps
    have hI := h3 t ms ht
    have h1 := flatten_length_le h.wf hps hI.sorted hI.disjoint
      (fun k hk tr htr => (C90_exist h members ti e t ms k tr ht hk htr).2)
    obtain ⟨h4, h5⟩ := length_le_flatten hI.two
    exact ⟨by omega, fun K hK => by have := h5 K hK; omega⟩
  refine ⟨hpos, ?_, ?_⟩
  · intro ms hms
    obtain ⟨t, ht⟩ := List.getElem?_of_mem hms
    have htl := (List.getElem?_eq_some_iff.1 ht).1
    have hps : D.positions[t]? = some D.positions[t] := List.getElem?_eq_getElem (by omega)
    obtain ⟨h4, h5⟩ := hfr t ms _ ht hps
    have := hpos _ (List.mem_of_getElem? hps)
    exact ⟨by omega, fun K hK => by have := h5 K hK; omega⟩
  · intro t K c hc
    obtain ⟨ti', hof', hnb, hAg, _, hlk, _, hused⟩ := index_facts hrun hsz
    rw [hof] at hof'
    cases hof'
    have hsub : ∀ x ∈ List.range ti.trajs.length, x ∈ ti.inverse.flatten := by
      intro x hx
      obtain ⟨s, hs, hm⟩ := hused x (List.mem_range.1 hx)
      obtain ⟨⟨p, x'⟩, hp, rfl⟩ := List.mem_map.1 hm
      have := (hlk s p x').2 ⟨_, List.getElem?_eq_getElem hs, hp⟩
      rw [Option.bind_eq_some_iff] at this
      obtain ⟨row, hr, hpr⟩ := this
      exact List.mem_flatten.2 ⟨row, List.mem_of_getElem? hr, List.mem_of_getElem? hpr⟩
    have hle := (List.subperm_of_subset List.nodup_range hsub).length_le
    rw [List.length_range, List.length_flatten, hinv] at hle
    have hle2 : (members.map List.length).sum ≤ (D.positions.map (fun ps => ps.pos.length)).sum :=
      sum_map_le hlen (fun i x y hx hy => (hfr i x y hx hy).1)
    have hcl : c < ti.trajs.length := by
      obtain ⟨ti2, hof2, _, k1, k2, _⟩ := C03_index_inverse _ _ tm hrun hsz
      rw [hof] at hof2
      cases hof2
      have := (k1 t K c).2 ((k2 t K c).1 hc)
      unfold TrajIndex.convert at this
      rw [bind_ok] at this
      obtain ⟨T, hT, -⟩ := this
      rw [getR_ok] at hT
      exact (List.getElem?_eq_some_iff.1 hT).1
    omega

/-- One file per time is written. A program that reads it back gets, for each cluster, the number of its
trajectory and the positions of its members, in the same order. -/
theorem C94_save (h : Good D pop) (members : List (List (List Nat))) (ti : TrajIndex)
    (e : assign D pop [] = .ok (members, ti))
    (hN : (D.positions.map (fun ps => ps.pos.length)).sum < szMod) :
    ∃ files, save D members ti = .ok files ∧ files.length = D.positions.length ∧
    ∀ (t : Nat) (text : List Char) (ms : List (List Nat)), files[t]? = some text → members[t]? = some ms →
      ∃ es : List (Nat × List Nat), readFile text = some es ∧ es.length = ms.length ∧
        ∀ (K : Nat) (k : List Nat), ms[K]? = some k → ∃ (label : Nat) (ps : List Nat), es[K]? = some (label, ps) ∧ ti.invert t K = .ok label ∧
          ps.length = k.length ∧
          ∀ (i tr : Nat), k[i]? = some tr → ∃ p, ps[i]? = some p ∧ D.trajectories.convert t tr = .ok p := by
  obtain ⟨hlen, hinv⟩ := assign_inverse h members ti e
  obtain ⟨hpos, hms, hlab⟩ := numbers_fit h members ti e hN
  have hil : ti.inverse.length = members.length := by
    have := congrArg List.length hinv
    simpa using this
  have hex : ∀ t ms, members[t]? = some ms → ∀ k ∈ ms, ∀ tr ∈ k, Exists D tr t := fun t ms ht k hk tr htr =>
    (C90_exist h members ti e t ms k tr ht hk htr).2
  have hrow : ∀ (t : Nat) (ms : List (List Nat)) (labels : List Nat), members[t]? = some ms → ti.inverse[t]? = some labels → labels.length = ms.length := by
    intro t ms labels ht hi
    have := congrArg (fun l => l[t]?) hinv
    simp only [List.getElem?_map, ht, hi, Option.map_some] at this
    exact Option.some.inj this
  have hrank : ∀ t tr, Exists D tr t → rankOf D t tr < szMod := by
    intro t tr he
    obtain ⟨ps, x, hps, hx, -⟩ := at_of_convert h.wf (rankOf_eq h.wf he)
    have := (List.getElem?_eq_some_iff.1 hx).1
    have := hpos ps (List.mem_of_getElem? hps)
    omega
  have hsave : save D members ti = .ok ((List.range ti.inverse.length).map (fun t =>
      showNat (ti.inverse.getD t []).length ++ ['\n'] ++
        (((ti.inverse.getD t []).zip ((members.getD t []).map (fun k => k.map (rankOf D t)))).map lineText).flatten)) := by
    unfold save
    apply TreeIndex.mapM_ok_of
    intro t ht
    have ht' : t < ti.inverse.length := List.mem_range.1 ht
    have hm : t < members.length := by omega
    have e1 := List.getElem?_eq_getElem ht'
    have e2 := List.getElem?_eq_getElem hm
    rw [getD_of e1, getD_of e2]
    exact saveFrame_eq h.wf e2 e1 (hrow t _ _ e2 e1) (hex t _ e2)
  refine ⟨_, hsave, by simp [hil, hlen], ?_⟩
  intro t text ms htext ht
  have hm := (List.getElem?_eq_some_iff.1 ht).1
  have ht' : t < ti.inverse.length := by omega
  have e1 := List.getElem?_eq_getElem ht'
  have hl := hrow t _ _ ht e1
  rw [List.getElem?_map, List.getElem?_range ht', Option.map_some, getD_of e1, getD_of ht] at htext
  have htext := Option.some.inj htext
  generalize hes : (ti.inverse[t]).zip (ms.map (fun k => k.map (rankOf D t))) = es at htext
  have hesl : es.length = ti.inverse[t].length := by
    rw [← hes, List.length_zip, List.length_map, hl, Nat.min_self]
  have hget : ∀ K k, ms[K]? = some k → ∃ label, es[K]? = some (label, k.map (rankOf D t)) ∧
      ti.invert t K = .ok label := by
    intro K k hk
    have hK := (List.getElem?_eq_some_iff.1 hk).1
    have hK' : K < ti.inverse[t].length := by omega
    refine ⟨ti.inverse[t][K], ?_, invert_ok.2 ⟨_, e1, List.getElem?_eq_getElem hK'⟩⟩
    rw [← hes, List.getElem?_zip_eq_some, List.getElem?_map, hk]
    exact ⟨List.getElem?_eq_getElem hK', rfl⟩
  refine ⟨es, ?_, by omega, ?_⟩
  · rw [← htext, ← hesl]
    have hmm := hms ms (List.mem_of_getElem? ht)
    refine readFile_text es (by omega) ?_
    intro x hx
    obtain ⟨K, hK⟩ := List.getElem?_of_mem hx
    have hKlt := (List.getElem?_eq_some_iff.1 hK).1
    have hKm : K < ms.length := by omega
    obtain ⟨label, e2, e3⟩ := hget K ms[K] (List.getElem?_eq_getElem hKm)
    rw [hK] at e2
    cases e2
    refine ⟨hlab t K label e3, ?_, ?_⟩
    · simpa using hmm.2 _ (List.getElem_mem hKm)
    · intro p hp
      obtain ⟨tr, htr, rfl⟩ := List.mem_map.1 hp
      exact hrank t tr (hex t ms ht _ (List.getElem_mem hKm) tr htr)
  · intro K k hk
    obtain ⟨label, e2, e3⟩ := hget K k hk
    refine ⟨label, _, e2, e3, by simp, ?_⟩
    intro i tr hi
    exact ⟨rankOf D t tr, by rw [List.getElem?_map, hi, Option.map_some],
      rankOf_eq h.wf (hex t ms ht k (List.mem_of_getElem? hk) tr (List.mem_of_getElem? hi))⟩

/-- The files of the two bonded particles are written. -/
example : ∃ members ti files, assign exBonds [0, 1] [] = .ok (members, ti) ∧
    save exBonds members ti = .ok files ∧ files.length = 3 := by
  obtain ⟨members, ti, e, -⟩ := C90_members good_exBonds (by simp [exBonds, exTwo])
  obtain ⟨files, h1, h2, -⟩ := C94_save good_exBonds members ti e (by simp [exBonds, exTwo, szMod])
  exact ⟨members, ti, files, e, h1, h2⟩

/-- The format on one case: cluster of label 3 with the particles 10 and 2. -/
example : readFile (showNat 1 ++ ['\n'] ++ lineText (3, [10, 2])) = some [(3, [10, 2])] := by
  have := readFile_text [(3, [10, 2])] (by simp [szMod]) (by simp [szMod])
  simpa using this

end DynClusters
end Colloids
