import Verif.Py.LinkerUpdate
import Verif.Traj.Props

/-! # Linking of trajectories in python (C148) -/

namespace Colloids
namespace Py
namespace Linker

/-- What `np.argsort` gives: the indices, by increasing value. -/
def Sorts {G : Type} [LE G] (argsort : List G → List Nat) : Prop :=
  ∀ ds, (argsort ds).Perm (List.range ds.length) ∧ (argsort ds).Pairwise fun i j => ∀ a b, ds[i]? = some a → ds[j]? = some b → a ≤ b

/-- The linkers that can be reached by the methods, when links start at a position of the last frame, when the trajectories that are continued
by `update` exist in one of the two frames before the last, and when the frames that are loaded continue trajectories of the last frame
and number the new ones in order. -/
inductive Reached {G : Type} (argsort : List G → List Nat) : Linker → Prop
  | new (n : Nat) : Reached argsort (new n)
  | load {l l' : Linker} {f prev : List Nat} : Reached argsort l → l.pos2tr.getLast? = some prev →
      (∀ tr ∈ f, tr < l.trajstart.length → tr ∈ prev ∧ f.count tr = 1) →
      f.filter (l.trajstart.length ≤ ·) = List.range' l.trajstart.length (f.filter (l.trajstart.length ≤ ·)).length →
      l.loadFrame f = .ok l' → Reached argsort l'
  | add {l l' : Linker} {weave : Bool} {size : Nat} {pairs : List (Nat × Nat)} {ds : List G} {prev : List Nat} : Reached argsort l →
      l.pos2tr.getLast? = some prev → (∀ x ∈ pairs, x.1 < prev.length) → l.addFrame weave argsort size pairs ds = .ok l' →
      Reached argsort l'
  | update {l l' : Linker} {pairs : List (Nat × Nat)} {ds : List G} {grown : List Bool} {old : List (List Nat)} {f g prev : List Nat} :
      Reached argsort l → l.pos2tr = old ++ [prev, g, f] → (∀ x ∈ pairs, x.2 < f.length ∧ (x.1 ∈ g ∨ x.1 ∈ prev)) →
      l.update argsort pairs ds = .ok (l', grown) → Reached argsort l'

theorem Built.peel {l : Linker} (h : Built l) {old : List (List Nat)} {g f : List Nat} (hp : l.pos2tr = old ++ [g, f]) :
    ∃ l0, Built l0 ∧ l0.pos2tr = old ++ [g] ∧ l0.Loadable f ∧ l = ext l0 f := by
  cases h with
  | new n =>
    have := congrArg List.length hp
    simp [Linker.new] at this
  | @frame l0 f0 hl hf =>
    have h1 : l0.pos2tr ++ [f0] = (old ++ [g]) ++ [f] := by
      have : (ext l0 f0).pos2tr = l0.pos2tr ++ [f0] := rfl
      rw [← this, hp]; simp
    obtain ⟨h2, h3⟩ := List.append_inj' h1 rfl
    cases h3
    exact ⟨l0, hl, h2, hf, rfl⟩

theorem loadable_count {l : Linker} {f prev : List Nat} (hprev : l.pos2tr.getLast? = some prev)
    (h : ∀ tr ∈ f, tr < l.trajstart.length → tr ∈ prev ∧ f.count tr = 1)
    (hf : f.filter (l.trajstart.length ≤ ·) = List.range' l.trajstart.length (f.filter (l.trajstart.length ≤ ·)).length) : l.Loadable f := by
  refine ⟨?_, ?_, hf⟩
  · rw [List.nodup_iff_count_le_one]
    intro tr
    by_cases htr : tr ∈ f.filter (· < l.trajstart.length)
    · have h2 := List.mem_filter.1 htr
      rw [List.count_filter (by simpa using h2.2), (h tr h2.1 (by simpa using h2.2)).2]
    · rw [List.count_eq_zero_of_not_mem htr]; omega
  · intro tr htr hlt
    exact ⟨prev, hprev, (h tr htr hlt).1⟩

theorem sorts_lt {G : Type} [LE G] {argsort : List G → List Nat} (hs : Sorts argsort) {ds : List G} {n : Nat} (h : n = ds.length) :
    ∀ i ∈ argsort ds, i < n := by
  intro i hi
  rw [(hs ds).1.mem_iff, List.mem_range] at hi
  omega

theorem update_none {G : Type} {argsort : List G → List Nat} {l : Linker} (hb : Built l) {g f prev : List Nat} (hg : l.Loadable g)
    (hprev : l.pos2tr.getLast? = some prev) {pairs : List (Nat × Nat)} {ds : List G}
    (hlen : pairs.length = ds.length) (hord : ∀ i ∈ argsort ds, i < pairs.length)
    (hval : ∀ x ∈ pairs, x.2 < f.length ∧ x.1 < (ext l g).trajstart.length)
    (hnone : ∀ x ∈ pairs, x.1 ∈ g ∨ f.getD x.2 0 < (ext l g).trajstart.length) :
    update argsort (ext (ext l g) f) pairs ds = .error .outOfRange := by
  have hl := hb.good
  have hl0 := ext_good hl hg
  set l0 := ext l g with hl0d
  set nb := l0.trajstart.length with hnb
  have hlast0 : l0.pos2tr.getLast? = some g := by simp [hl0d, ext]
  have hltg : ∀ tr ∈ g, tr < nb := by
    intro tr htr
    obtain ⟨p, hp⟩ := List.mem_iff_getElem?.1 htr
    exact at_lt hl0 (last_at hlast0 hp)
  have hT : (ext l0 f).pos2tr.length = l.pos2tr.length + 2 := by simp [ext, hl0d]
  have hTpos : 0 < l.pos2tr.length := by
    cases hc : l.pos2tr with
    | nil => rw [hc] at hprev; simp at hprev
    | cons a r => simp
  have hnbl : (ext l0 f).nbtrajs = l.nbtrajs ++ [nb, nb + (newOf f nb).length] := by
    simp [ext, hl0d, hnb]
  have hp2 : (ext l0 f).pos2tr = l.pos2tr ++ [g, f] := by simp [ext, hl0d]
  have hmem : ∀ i ∈ argsort ds, pairs.getD i (0, 0) ∈ pairs := by
    intro i hi
    rw [List.getD_eq_getElem _ _ (hord i hi)]
    exact List.getElem_mem _
  unfold update
  have hT2 : 2 < (ext l0 f).pos2tr.length := by omega
  rw [if_neg (by rw [decide_eq_true hT2]; decide), if_neg (by simpa using hlen), arrange_ok pairs _ hord]
  simp only [ok_bind]
  have i1 : idx (ext l0 f).nbtrajs ((ext l0 f).nbtrajs.length - 2) = .ok nb := by
    rw [hnbl]
    unfold idx
    rw [show (l.nbtrajs ++ [nb, nb + (newOf f nb).length]).length - 2 = l.nbtrajs.length by simp,
      List.getElem?_append_right (le_refl _)]
    simp
  have i2 : idx (ext l0 f).pos2tr ((ext l0 f).pos2tr.length - 2) = .ok g := by
    rw [hp2]
    unfold idx
    rw [show (l.pos2tr ++ [g, f]).length - 2 = l.pos2tr.length by simp, List.getElem?_append_right (le_refl _)]
    simp
  have i3 : idx (ext l0 f).pos2tr ((ext l0 f).pos2tr.length - 1) = .ok f := by
    rw [hp2]
    unfold idx
    rw [show (l.pos2tr ++ [g, f]).length - 1 = l.pos2tr.length + 1 by simp, List.getElem?_append_right (by omega)]
    simp
  rw [i1, i2, i3]
  simp only [ok_bind]
  rw [mark_fold (fun x : Nat => x) g nb hltg]
  simp only [ok_bind]
  rw [filter_fold (fun i => pairs.getD i (0, 0)) g f nb (argsort ds) fun i hi => ⟨(hval _ (hmem i hi)).2, (hval _ (hmem i hi)).1⟩]
  simp only [ok_bind]
  have : ((argsort ds).filter fun i => decide ((pairs.getD i (0, 0)).1 ∉ g ∧ nb ≤ f.getD (pairs.getD i (0, 0)).2 0)) = [] := by
    rw [List.filter_eq_nil_iff]
    intro i hi
    rw [decide_eq_true_iff]
    rintro ⟨h1, h2⟩
    rcases hnone _ (hmem i hi) with h | h
    · exact h1 h
    · omega
  rw [this]
  rfl

theorem update_size {G : Type} {argsort : List G → List Nat} {l : Linker} {pairs : List (Nat × Nat)} {ds : List G} {r : Linker × List Bool}
    (h : update argsort l pairs ds = .ok r) : pairs.length = ds.length := by
  unfold update at h
  split at h
  · simp at h
  · split at h
    · simp at h
    · rename_i h1; simpa using h1

theorem Reached.built {G : Type} [LE G] {argsort : List G → List Nat} (hs : Sorts argsort) {l : Linker} (h : Reached argsort l) : Built l := by
  induction h with
  | new n => exact .new n
  | load _ hp hc hf he ih =>
    rw [load_eq ih.good.toSized] at he
    cases he
    exact .frame ih (loadable_count hp hc hf)
  | @add l l' weave size pairs ds prev _ hp hv he ih =>
    have hlen : pairs.length = ds.length := by
      unfold addFrame at he
      split at he
      · simp at he
      · rename_i h1; simpa using h1
    cases hc : pairs with
    | nil =>
      have hd : ds = [] := by rw [hc] at hlen; exact List.length_eq_zero_iff.1 hlen.symm
      obtain ⟨f, h1, h2, _⟩ := add_none argsort weave ih.good hp size
      rw [hc, hd, h1] at he
      cases he
      exact .frame ih h2
    | cons a r =>
      have hne : pairs ≠ [] := by rw [hc]; simp
      have hall : ∀ x ∈ pairs, x.2 < size := by
        unfold addFrame at he
        rw [if_neg (by simpa using hlen), if_neg (by simpa using hne)] at he
        split at he
        · simp at he
        · rename_i h1; simpa using h1
      have hw : weave = true := by
        by_contra hw
        have hw : weave = false := by simpa using hw
        subst hw
        unfold addFrame at he
        rw [if_neg (by simpa using hlen), if_neg (by simpa using hne), if_neg (by simpa using hall),
          arrange_ok _ _ (sorts_lt hs hlen)] at he
        simp [last, hp] at he
      subst hw
      obtain ⟨f, h1, h2, _⟩ := add_eq ih.good hp size hlen hne (sorts_lt hs hlen) fun x hx => ⟨hv x hx, hall x hx⟩
      rw [h1] at he
      cases he
      exact .frame ih h2
  | @update l l' pairs ds grown old f g prev _ hp hv he ih =>
    obtain ⟨l0, hb0, hp0, hf0, rfl⟩ := ih.peel (old := old ++ [prev]) (g := g) (f := f) (by simpa using hp)
    obtain ⟨l00, hb00, hp00, hg0, rfl⟩ := hb0.peel (old := old) (g := prev) (f := g) (by simpa using hp0)
    have hlen := update_size he
    have hprev : l00.pos2tr.getLast? = some prev := by rw [hp00]; simp
    by_cases hne : picks (fun i => pairs.getD i (0, 0)) ((argsort ds).filter fun i =>
      decide ((pairs.getD i (0, 0)).1 ∉ g ∧ (ext l00 g).trajstart.length ≤ f.getD (pairs.getD i (0, 0)).2 0)) = []
    · have hord := sorts_lt hs hlen
      have hlast0 : (ext l00 g).pos2tr.getLast? = some g := by simp [ext]
      rw [update_none (f := f) hb00 hg0 hprev hlen hord ?_ ?_] at he
      · simp at he
      · intro x hx
        refine ⟨(hv x hx).1, ?_⟩
        rcases (hv x hx).2 with h | h
        · obtain ⟨p, hp⟩ := List.mem_iff_getElem?.1 h
          exact at_lt (ext_good hb00.good hg0) (last_at hlast0 hp)
        · obtain ⟨p, hp⟩ := List.mem_iff_getElem?.1 h
          have := at_lt hb00.good (last_at hprev hp)
          have h2 : (ext l00 g).trajstart.length = l00.trajstart.length + (newOf g l00.trajstart.length).length := by simp [ext]
          omega
      · intro x hx
        obtain ⟨i, hi⟩ := List.mem_iff_getElem?.1 hx
        have hil : i < ds.length := by rw [← hlen]; exact (List.getElem?_eq_some_iff.1 hi).1
        have hgd : pairs.getD i (0, 0) = x := by rw [List.getD_eq_getElem?_getD, hi]; rfl
        by_contra hc
        rw [not_or] at hc
        have hio : i ∈ (argsort ds).filter fun i =>
            decide ((pairs.getD i (0, 0)).1 ∉ g ∧ (ext l00 g).trajstart.length ≤ f.getD (pairs.getD i (0, 0)).2 0) := by
          rw [List.mem_filter, (hs ds).1.mem_iff, List.mem_range, decide_eq_true_iff, hgd]
          exact ⟨hil, hc.1, by omega⟩
        rcases picks_max (fun i => pairs.getD i (0, 0)) _ (fun _ _ => True) (List.pairwise_of_forall fun _ _ => trivial) i hio with h | ⟨j, h, _⟩
        · rw [hne] at h; simp at h
        · rw [hne] at h; simp at h
    · obtain ⟨links, f', _, h1, h2, h3, _⟩ := update_eq hb00 hg0 hf0 hprev hlen (sorts_lt hs hlen) hv rfl hne
      rw [h1] at he
      cases he
      exact .frame (.frame hb00 h2) h3

theorem Built.first {l : Linker} (h : Built l) : ∃ n rest, l.pos2tr = List.range n :: rest ∧ rest.foldlM loadFrame (Linker.new n) = .ok l := by
  induction h with
  | new n => exact ⟨n, [], rfl, rfl⟩
  | @frame l f hl hf ih =>
    obtain ⟨n, rest, h1, h2⟩ := ih
    refine ⟨n, rest ++ [f], by simp [ext, h1], ?_⟩
    rw [List.foldlM_append, h2]
    simp only [ok_bind, List.foldlM_cons, List.foldlM_nil]
    rw [load_eq hl.good.toSized]
    rfl

/-- C148. Whatever sequence of frames and of corrections was given, a position belongs to a trajectory if and only if the trajectory passes by it
at that time; every trajectory has at least one position and ends before the film does; `nbtrajs` is, frame by frame, the number of
trajectories that started at this time or before. -/
theorem C148_tables_partial {G : Type} [LE G] {argsort : List G → List Nat} (hs : Sorts argsort) {l : Linker} (h : Reached argsort l) :
    (∀ t p tr, (∃ f : List Nat, l.pos2tr[t]? = some f ∧ f[p]? = some tr) ↔
      ∃ (s : Nat) (steps : List Nat), l.trajstart[tr]? = some s ∧ l.tr2pos[tr]? = some steps ∧ s ≤ t ∧ steps[t - s]? = some p) ∧
    l.tr2pos.length = l.trajstart.length ∧ l.nbtrajs.length = l.pos2tr.length ∧
    (∀ (tr s : Nat) (steps : List Nat), l.trajstart[tr]? = some s → l.tr2pos[tr]? = some steps →
      steps ≠ [] ∧ s + steps.length ≤ l.pos2tr.length) ∧
    ∀ t n : Nat, l.nbtrajs[t]? = some n → n = l.trajstart.countP (· ≤ t) := by
  have hg := (h.built hs).good
  refine ⟨hg.inverse, hg.tr2pos, hg.frames, hg.ends, ?_⟩
  intro t n hn
  have hle := hg.atMost t n hn
  have key : ∀ (a : List Nat) (n : Nat), n ≤ a.length → (∀ tr s : Nat, a[tr]? = some s → (tr < n ↔ s ≤ t)) → n = a.countP (· ≤ t) := by
    intro a
    induction a with
    | nil => intro n hn _; simpa using hn
    | cons x a ih =>
      intro n hn hc
      have h0 := hc 0 x rfl
      cases n with
      | zero =>
        have hx : ¬ x ≤ t := fun h => absurd (h0.2 h) (by omega)
        have := ih 0 (by omega) fun tr s htr => by
          have := hc (tr + 1) s (by simpa using htr)
          constructor
          · intro h; omega
          · intro h; have := this.2 h; omega
        rw [List.countP_cons_of_neg (by simpa using hx)]
        exact this
      | succ n =>
        have hx : x ≤ t := h0.1 (by omega)
        have := ih n (by simpa using hn) fun tr s htr => by
          have := hc (tr + 1) s (by simpa using htr)
          rw [← this]; omega
        rw [List.countP_cons_of_pos (by simpa using hx), ← this]
  exact key _ n hle fun tr s htr => hg.counts t n tr s hn htr

/-- C148. A frame is linked by increasing distance: the links that are taken share no position, and every link that is not taken shares
a position with one that is taken and is not longer. The position at the end of a link that is taken continues the trajectory at its other end;
the others start new trajectories. The earlier frames are not changed. -/
theorem C148_link_partial {G : Type} [LE G] {argsort : List G → List Nat} (hs : Sorts argsort) {l : Linker} (h : Reached argsort l)
    {prev : List Nat} (hprev : l.pos2tr.getLast? = some prev) (size : Nat) (pairs : List (Nat × Nat)) (ds : List G)
    (hlen : pairs.length = ds.length) (hval : ∀ x ∈ pairs, x.1 < prev.length ∧ x.2 < size) :
    ∃ (l' : Linker) (f M : List Nat), l.addFrame true argsort size pairs ds = .ok l' ∧ l'.pos2tr = l.pos2tr ++ [f] ∧ f.length = size ∧
      M.Nodup ∧ (∀ i ∈ M, i < pairs.length) ∧
      (∀ (i j : Nat) (x y : Nat × Nat), i ∈ M → j ∈ M → i ≠ j → pairs[i]? = some x → pairs[j]? = some y → x.1 ≠ y.1 ∧ x.2 ≠ y.2) ∧
      (∀ (i : Nat) (x : Nat × Nat) (a : G), pairs[i]? = some x → ds[i]? = some a → i ∉ M →
        ∃ (j : Nat) (y : Nat × Nat) (b : G), j ∈ M ∧ pairs[j]? = some y ∧ ds[j]? = some b ∧ b ≤ a ∧ (y.1 = x.1 ∨ y.2 = x.2)) ∧
      (∀ (i : Nat) (x : Nat × Nat), i ∈ M → pairs[i]? = some x → f[x.2]? = prev[x.1]?) ∧
      (∀ q, q < size → (∀ (i : Nat) (x : Nat × Nat), i ∈ M → pairs[i]? = some x → x.2 ≠ q) →
        ∃ tr, f[q]? = some tr ∧ l.trajstart.length ≤ tr) := by
  have hb := h.built hs
  have hord := sorts_lt hs hlen
  set P : Nat → Nat × Nat := fun i => pairs.getD i (0, 0) with hP
  have hPget : ∀ (i : Nat) (x : Nat × Nat), pairs[i]? = some x → P i = x := by
    intro i x hx
    show pairs.getD i (0, 0) = x
    rw [List.getD_eq_getElem?_getD, hx]; rfl
  have hmemlt : ∀ i ∈ picks P (argsort ds), i < pairs.length := fun i hi => hord i (picks_sub _ _ i hi)
  have hnd : (picks P (argsort ds)).Nodup := by
    refine (picks_pairwise P _).imp ?_
    intro a b h hab
    exact h (by rw [hab]; exact Or.inl rfl)
  have hadd : ∃ f, addFrame true argsort l size pairs ds = .ok (ext l f) ∧ f.length = size ∧
      (∀ i ∈ picks P (argsort ds), f[(P i).2]? = prev[(P i).1]?) ∧
      ∀ q, q < size → (∀ i ∈ picks P (argsort ds), (P i).2 ≠ q) → ∃ tr, f[q]? = some tr ∧ l.trajstart.length ≤ tr := by
    by_cases hne : pairs = []
    · have hd : ds = [] := by rw [hne] at hlen; exact List.length_eq_zero_iff.1 hlen.symm
      obtain ⟨f, h1, _, h3, h4⟩ := add_none argsort true hb.good hprev size
      refine ⟨f, by rw [hne, hd]; exact h1, h3, ?_, fun q hq _ => h4 q hq⟩
      intro i hi
      have := hmemlt i hi
      rw [hne] at this; simp at this
    · obtain ⟨f, h1, _, h3, h4, h5⟩ := add_eq hb.good hprev size hlen hne hord hval
      exact ⟨f, h1, h3, h4, h5⟩
  obtain ⟨f, h1, h2, h3, h4⟩ := hadd
  refine ⟨ext l f, f, picks P (argsort ds), h1, rfl, h2, hnd, hmemlt, ?_, ?_, ?_, ?_⟩
  · intro i j x y hi hj hij hx hy
    have hc : ¬ Clash (P i) (P j) := fun hc => hij (picks_apart P _ hi hj hc)
    rw [hPget i x hx, hPget j y hy] at hc
    exact ⟨fun h => hc (Or.inl h), fun h => hc (Or.inr h)⟩
  · intro i x a hx ha hi
    have hio : i ∈ argsort ds := by
      rw [(hs ds).1.mem_iff, List.mem_range]
      exact (List.getElem?_eq_some_iff.1 ha).1
    rcases picks_max P _ _ (hs ds).2 i hio with h | ⟨j, h5, h6, h7⟩
    · exact absurd h hi
    · have hj := hmemlt j h5
      have hjd : j < ds.length := by omega
      refine ⟨j, pairs[j], ds[j], h5, List.getElem?_eq_getElem hj, List.getElem?_eq_getElem hjd,
        h6 _ _ (List.getElem?_eq_getElem hjd) ha, ?_⟩
      rw [hPget j _ (List.getElem?_eq_getElem hj), hPget i x hx] at h7
      exact h7
  · intro i x hi hx
    have := h3 i hi
    rwa [hPget i x hx] at this
  · intro q hq hn
    refine h4 q hq fun i hi => ?_
    have hil := hmemlt i hi
    have := hn i pairs[i] hi (List.getElem?_eq_getElem hil)
    rwa [← hPget i _ (List.getElem?_eq_getElem hil)] at this

/-- C148. The links that are not wanted are those from a trajectory that exists in the frame before the last, and those to a position that
already continues a trajectory. When a link is left, `update` takes links by increasing distance, adds a position to the frame before
the last for every one of them, continues the trajectories in the last frame, leaves the trajectories of the other positions that
already continued one, numbers anew the trajectories that start there, and tells which trajectories have grown. -/
theorem C148_update_partial {G : Type} [LE G] {argsort : List G → List Nat} (hs : Sorts argsort) {l : Linker} (h : Reached argsort l)
    {old : List (List Nat)} {prev g f : List Nat} (hp : l.pos2tr = old ++ [prev, g, f]) {nb : Nat}
    (hnb : l.nbtrajs[old.length + 1]? = some nb) (pairs : List (Nat × Nat)) (ds : List G)
    (hlen : pairs.length = ds.length) (hval : ∀ x ∈ pairs, x.2 < f.length ∧ (x.1 ∈ g ∨ x.1 ∈ prev))
    (hsome : ∃ x ∈ pairs, x.1 ∉ g ∧ ∃ tr, f[x.2]? = some tr ∧ nb ≤ tr) :
    ∃ (l' : Linker) (f' : List Nat) (links : List (Nat × Nat)) (M : List Nat),
      l.update argsort pairs ds = .ok (l', (List.range l'.trajstart.length).map fun tr => decide (∃ x ∈ links, x.1 = tr)) ∧
      l'.pos2tr = old ++ [prev, g ++ links.map (·.1), f'] ∧ f'.length = f.length ∧ M.Nodup ∧
      links.Perm (M.filterMap fun i => pairs[i]?) ∧
      (∀ i ∈ M, ∃ x, pairs[i]? = some x ∧ x.1 ∉ g ∧ ∃ tr, f[x.2]? = some tr ∧ nb ≤ tr) ∧
      (∀ (i j : Nat) (x y : Nat × Nat), i ∈ M → j ∈ M → i ≠ j → pairs[i]? = some x → pairs[j]? = some y → x.1 ≠ y.1 ∧ x.2 ≠ y.2) ∧
      (∀ (i : Nat) (x : Nat × Nat) (a : G), pairs[i]? = some x → ds[i]? = some a → i ∉ M → x.1 ∉ g →
        (∃ tr, f[x.2]? = some tr ∧ nb ≤ tr) →
        ∃ (j : Nat) (y : Nat × Nat) (b : G), j ∈ M ∧ pairs[j]? = some y ∧ ds[j]? = some b ∧ b ≤ a ∧ (y.1 = x.1 ∨ y.2 = x.2)) ∧
      (∀ x ∈ links, f'[x.2]? = some x.1) ∧
      (∀ q tr : Nat, f[q]? = some tr → tr < nb → f'[q]? = some tr) ∧
      ∀ q tr : Nat, f[q]? = some tr → nb ≤ tr → (∀ x ∈ links, x.2 ≠ q) → ∃ tr', f'[q]? = some tr' ∧ nb ≤ tr' := by
  have hb := h.built hs
  obtain ⟨l0, hb0, hp0, hf0, rfl⟩ := hb.peel (old := old ++ [prev]) (g := g) (f := f) (by simpa using hp)
  obtain ⟨l00, hb00, hp00, hg0, rfl⟩ := hb0.peel (old := old) (g := prev) (f := g) (by simpa using hp0)
  have hprev : l00.pos2tr.getLast? = some prev := by rw [hp00]; simp
  have hord := sorts_lt hs hlen
  have hnb' : nb = (ext l00 g).trajstart.length := by
    have h1 : (ext (ext l00 g) f).nbtrajs = l00.nbtrajs ++ [(ext l00 g).trajstart.length,
        (ext l00 g).trajstart.length + (newOf f (ext l00 g).trajstart.length).length] := by simp [ext]
    have h2 : l00.nbtrajs.length = old.length + 1 := by rw [hb00.good.frames, hp00]; simp
    rw [h1, List.getElem?_append_right (by omega), h2] at hnb
    simpa using hnb.symm
  set P : Nat → Nat × Nat := fun i => pairs.getD i (0, 0) with hP
  have hPget : ∀ (i : Nat) (x : Nat × Nat), pairs[i]? = some x → P i = x := by
    intro i x hx
    show pairs.getD i (0, 0) = x
    rw [List.getD_eq_getElem?_getD, hx]; rfl
  have hfget : ∀ q tr : Nat, f[q]? = some tr → f.getD q 0 = tr := by
    intro q tr hq
    rw [List.getD_eq_getElem?_getD, hq]; rfl
  obtain ⟨M, hM⟩ : ∃ M, M = picks P ((argsort ds).filter fun i =>
    decide ((P i).1 ∉ g ∧ (ext l00 g).trajstart.length ≤ f.getD (P i).2 0)) := ⟨_, rfl⟩
  have hsub : ∀ i ∈ M, i < pairs.length ∧ (P i).1 ∉ g ∧ nb ≤ f.getD (P i).2 0 := by
    intro i hi
    rw [hM] at hi
    have := picks_sub _ _ i hi
    rw [List.mem_filter, decide_eq_true_iff, ← hnb'] at this
    exact ⟨hord i this.1, this.2⟩
  have hmax : ∀ (i : Nat) (x : Nat × Nat) (a : G), pairs[i]? = some x → ds[i]? = some a → i ∉ M → x.1 ∉ g →
        (∃ tr, f[x.2]? = some tr ∧ nb ≤ tr) →
        ∃ (j : Nat) (y : Nat × Nat) (b : G), j ∈ M ∧ pairs[j]? = some y ∧ ds[j]? = some b ∧ b ≤ a ∧ (y.1 = x.1 ∨ y.2 = x.2) := by
    intro i x a hx ha hi h1 ⟨tr, h2, h3⟩
    have hio : i ∈ (argsort ds).filter fun i =>
        decide ((P i).1 ∉ g ∧ (ext l00 g).trajstart.length ≤ f.getD (P i).2 0) := by
      rw [List.mem_filter, (hs ds).1.mem_iff, List.mem_range, decide_eq_true_iff, hPget i x hx, hfget _ _ h2, ← hnb']
      exact ⟨(List.getElem?_eq_some_iff.1 ha).1, h1, h3⟩
    have hpw := List.Pairwise.sublist (List.filter_sublist (p := fun i =>
        decide ((P i).1 ∉ g ∧ (ext l00 g).trajstart.length ≤ f.getD (P i).2 0))) (hs ds).2
    rcases picks_max P _ _ hpw i hio with h | ⟨j, h5, h6, h7⟩
    · rw [← hM] at h; exact absurd h hi
    · rw [← hM] at h5
      have hj := (hsub j h5).1
      have hjd : j < ds.length := by omega
      refine ⟨j, pairs[j], ds[j], h5, List.getElem?_eq_getElem hj, List.getElem?_eq_getElem hjd,
        h6 _ _ (List.getElem?_eq_getElem hjd) ha, ?_⟩
      rw [hPget j _ (List.getElem?_eq_getElem hj), hPget i x hx] at h7
      exact h7
  have hne : M ≠ [] := by
    obtain ⟨x, hx, h1, h2⟩ := hsome
    obtain ⟨i, hi⟩ := List.mem_iff_getElem?.1 hx
    intro he
    have hil : i < ds.length := by rw [← hlen]; exact (List.getElem?_eq_some_iff.1 hi).1
    obtain ⟨j, _, _, hj, _⟩ := hmax i x ds[i] hi (List.getElem?_eq_getElem hil) (by rw [he]; simp) h1 h2
    rw [he] at hj; simp at hj
  have hnd : M.Nodup := by
    rw [hM]
    refine (picks_pairwise P _).imp ?_
    intro a b h hab
    exact h (by rw [hab]; exact Or.inl rfl)
  obtain ⟨links, f', e1, e2, _, _, e5, e6, e7, e8⟩ := update_eq hb00 hg0 hf0 hprev hlen hord hval hM hne
  refine ⟨_, f', links, M, e2, ?_, e5, hnd, ?_, ?_, ?_, hmax, e6, ?_, ?_⟩
  · simp [ext, hp00]
  · have : M.filterMap (fun i => pairs[i]?) = M.map P := by
      have h1 : ∀ i ∈ M, pairs[i]? = some (P i) := by
        intro i hi
        have := (hsub i hi).1
        rw [List.getElem?_eq_getElem this, hPget i _ (List.getElem?_eq_getElem this)]
      rw [← List.filterMap_eq_map]
      exact List.filterMap_congr h1
    rw [this]
    exact e1
  · intro i hi
    obtain ⟨h1, h2, h3⟩ := hsub i hi
    have hx := List.getElem?_eq_getElem h1
    rw [hPget i _ hx] at h2 h3
    have hq := (hval _ (List.getElem_mem h1)).1
    exact ⟨pairs[i], hx, h2, f.getD pairs[i].2 0, getD_get hq, h3⟩
  · intro i j x y hi hj hij hx hy
    have hc : ¬ Clash (P i) (P j) := fun hc => hij (by rw [hM] at hi hj; exact picks_apart P _ hi hj hc)
    rw [hPget i x hx, hPget j y hy] at hc
    exact ⟨fun h => hc (Or.inl h), fun h => hc (Or.inr h)⟩
  · rw [hnb']; exact e7
  · intro q tr hq htr hn
    rw [hnb'] at htr ⊢
    exact e8 q (List.getElem?_eq_some_iff.1 hq).1 (by rw [hfget q tr hq]; exact htr) hn

/-- C148. The table from positions to trajectories is enough to get the linker back: loading its frames one by one gives the same linker. -/
theorem C148_reload {G : Type} [LE G] {argsort : List G → List Nat} (hs : Sorts argsort) {l : Linker} (h : Reached argsort l) :
    ∃ n rest, l.pos2tr = List.range n :: rest ∧ rest.foldlM loadFrame (Linker.new n) = .ok l := (h.built hs).first

theorem intersperse_tail (a : Nat) (r : List Nat) :
    (List.intersperse ['\t'] ((a :: r).map showNat)).flatten = showNat a ++ tailText r := by
  induction r generalizing a with
  | nil => simp [tailText]
  | cons b r ih =>
    have := ih b
    simp only [List.map_cons, List.intersperse_cons₂, List.flatten_cons] at this ⊢
    rw [this]
    simp [tailText]

theorem save_text (a : List (Nat × Nat × List Nat)) :
    (a.map fun x => showNat x.1 ++ ['\n'] ++ (List.intersperse ['\t'] ((x.2.1 :: x.2.2).map showNat)).flatten ++ ['\n']).flatten =
      filesText a := by
  unfold filesText
  congr 1
  apply List.map_congr_left
  intro x _
  rw [intersperse_tail]
  simp [trajText]

/-- C148. The file that is saved is the one the C++ library writes for the same trajectories, and that library reads them back. -/
theorem C148_save {G : Type} [LE G] {argsort : List G → List Nat} (hs : Sorts argsort) {l : Linker} (h : Reached argsort l)
    (hstart : ∀ s ∈ l.trajstart, s < 2 ^ 64) (hsteps : ∀ steps ∈ l.tr2pos, ∀ p ∈ steps, p < 2 ^ 64) :
    TrajIndex.write ((l.trajstart.zip l.tr2pos).map fun x => ⟨x.1, x.2⟩) = .ok l.save ∧
    TrajIndex.read l.save = .ok ((l.trajstart.zip l.tr2pos).map fun x => ⟨x.1, x.2⟩) := by
  have hg := (h.built hs).good
  have hne : ∀ x ∈ l.trajstart.zip l.tr2pos, x.2 ≠ [] := by
    intro x hx
    obtain ⟨i, hi⟩ := List.mem_iff_getElem?.1 hx
    rw [List.getElem?_zip_eq_some] at hi
    exact (hg.ends i x.1 x.2 hi.1 hi.2).1
  have hform : ∀ z : List (Nat × List Nat), (∀ x ∈ z, x.2 ≠ []) →
      ∃ a : List (Nat × Nat × List Nat), z = a.map fun x => (x.1, x.2.1 :: x.2.2) := by
    intro z
    induction z with
    | nil => intro _; exact ⟨[], rfl⟩
    | cons y z ih =>
      intro hz
      obtain ⟨a, ha⟩ := ih fun x hx => hz x (by simp [hx])
      obtain ⟨s, st⟩ := y
      cases st with
      | nil => exact absurd rfl (hz (s, []) (by simp))
      | cons p r => exact ⟨(s, p, r) :: a, by rw [ha]; rfl⟩
  obtain ⟨a, ha⟩ := hform _ hne
  have hsave : l.save = filesText a := by
    rw [← save_text, save, ha, List.map_map]
    rfl
  have hw : TrajIndex.write ((l.trajstart.zip l.tr2pos).map fun x => ⟨x.1, x.2⟩) = .ok l.save := by
    rw [hsave, ha, List.map_map]
    have := write_all a []
    simpa [TrajIndex.write, Function.comp_def] using this
  refine ⟨hw, ?_⟩
  obtain ⟨text, h1, h2⟩ := C04_round_trip ((l.trajstart.zip l.tr2pos).map fun x => (⟨x.1, x.2⟩ : Traj)) (by
    intro tr htr
    obtain ⟨x, hx, rfl⟩ := List.mem_map.1 htr
    obtain ⟨hx1, hx2⟩ := List.of_mem_zip (show (x.1, x.2) ∈ _ from hx)
    exact ⟨hne x hx, hstart _ hx1, hsteps _ hx2⟩)
  rw [hw] at h1
  cases h1
  exact h2

/-- A sort for the examples. -/
def exSort (ds : List Nat) : List Nat := (List.range ds.length).mergeSort fun i j => decide (ds.getD i 0 ≤ ds.getD j 0)

theorem exSort_sorts : Sorts exSort := by
  intro ds
  refine ⟨List.mergeSort_perm _ _, ?_⟩
  have h := List.pairwise_mergeSort (le := fun i j => decide (ds.getD i 0 ≤ ds.getD j 0)) (by
    intro a b c h1 h2
    simp only [decide_eq_true_eq] at *
    omega) (by intro a b; simp only [Bool.or_eq_true, decide_eq_true_eq]; omega) (List.range ds.length)
  refine h.imp ?_
  intro i j hij a b ha hb
  simpa [List.getD_eq_getElem?_getD, ha, hb] using hij

/-- Three particles of which one is lost and found again: the linker of the first three frames. -/
def exLinker : Linker := ⟨[[0, 0, 1], [1], [2, 1, 0], [2]], [[0, 1, 2], [0, 2], [2, 0, 3]], [0, 0, 0, 2], [3, 3, 4]⟩

theorem exLinker_reached : Reached exSort exLinker := by
  have h1 : Reached exSort ⟨[[0, 0], [1], [2, 1]], [[0, 1, 2], [0, 2]], [0, 0, 0], [3, 3]⟩ :=
    .load (prev := [0, 1, 2]) (f := [0, 2]) (.new 3) rfl (by decide) rfl (by decide +kernel)
  exact .load (prev := [0, 2]) (f := [2, 0, 3]) h1 rfl (by decide) rfl (by decide +kernel)

/-- The hypotheses of `C148_tables_partial`, `C148_reload` and `C148_save` are met by a film where a particle is lost. -/
example : Reached exSort exLinker ∧ Sorts exSort ∧ (∀ s ∈ exLinker.trajstart, s < 2 ^ 64) ∧
    ∀ steps ∈ exLinker.tr2pos, ∀ p ∈ steps, p < 2 ^ 64 :=
  ⟨exLinker_reached, exSort_sorts, by decide, by decide⟩

/-- The hypotheses of `C148_link_partial` are met, with two links that share a position. -/
example : exLinker.pos2tr.getLast? = some [2, 0, 3] ∧ ∀ x ∈ [(0, 1), (1, 1), (2, 0)], x.1 < 3 ∧ x.2 < 4 := by decide

/-- The hypotheses of `C148_update_partial` are met: the trajectory 1 is continued. -/
example : exLinker.pos2tr = [] ++ [[0, 1, 2], [0, 2], [2, 0, 3]] ∧ exLinker.nbtrajs[1]? = some 3 ∧
    (∀ x ∈ [(1, 2), (0, 2)], x.2 < 3 ∧ (x.1 ∈ [0, 2] ∨ x.1 ∈ [0, 1, 2])) ∧
    ∃ x ∈ [(1, 2), (0, 2)], x.1 ∉ [0, 2] ∧ ∃ tr, [2, 0, 3][x.2]? = some tr ∧ 3 ≤ tr :=
  ⟨rfl, rfl, by decide, (1, 2), by simp, by decide, 3, rfl, by decide⟩

/-- C148, the part that is false. The lines that import `weave` are commented out: with at least one link, a frame is never added. -/
theorem C148_weave_counterexample {G : Type} (argsort : List G → List Nat) (l : Linker) (size : Nat) (pairs : List (Nat × Nat)) (ds : List G)
    (hne : pairs ≠ []) : ∃ e, l.addFrame false argsort size pairs ds = .error e := by
  unfold addFrame
  split
  · exact ⟨_, rfl⟩
  · rw [if_neg (by simpa using hne)]
    split
    · exact ⟨_, rfl⟩
    · cases arrange (argsort ds) pairs with
      | error e => exact ⟨e, rfl⟩
      | ok s =>
        cases last l.pos2tr with
        | error e => exact ⟨e, rfl⟩
        | ok p => exact ⟨_, rfl⟩

example : [((0 : Nat), (1 : Nat))] ≠ [] := by simp

/-- C148, the part that is false. When no link is left, in particular when none is given, `update` does not leave the linker as it is:
it raises an `IndexError`. -/
theorem C148_nothing_counterexample {G : Type} [LE G] {argsort : List G → List Nat} (hs : Sorts argsort) {l : Linker} (h : Reached argsort l)
    {old : List (List Nat)} {prev g f : List Nat} (hp : l.pos2tr = old ++ [prev, g, f]) {nb : Nat}
    (hnb : l.nbtrajs[old.length + 1]? = some nb) (pairs : List (Nat × Nat)) (ds : List G)
    (hlen : pairs.length = ds.length) (hval : ∀ x ∈ pairs, x.2 < f.length ∧ (x.1 ∈ g ∨ x.1 ∈ prev))
    (hnone : ∀ x ∈ pairs, x.1 ∈ g ∨ ∃ tr, f[x.2]? = some tr ∧ tr < nb) :
    l.update argsort pairs ds = .error .outOfRange := by
  have hb := h.built hs
  obtain ⟨l0, hb0, hp0, hf0, rfl⟩ := hb.peel (old := old ++ [prev]) (g := g) (f := f) (by simpa using hp)
  obtain ⟨l00, hb00, hp00, hg0, rfl⟩ := hb0.peel (old := old) (g := prev) (f := g) (by simpa using hp0)
  have hprev : l00.pos2tr.getLast? = some prev := by rw [hp00]; simp
  have hnb' : nb = (ext l00 g).trajstart.length := by
    have h1 : (ext (ext l00 g) f).nbtrajs = l00.nbtrajs ++ [(ext l00 g).trajstart.length,
        (ext l00 g).trajstart.length + (newOf f (ext l00 g).trajstart.length).length] := by simp [ext]
    have h2 : l00.nbtrajs.length = old.length + 1 := by rw [hb00.good.frames, hp00]; simp
    rw [h1, List.getElem?_append_right (by omega), h2] at hnb
    simpa using hnb.symm
  have hlast0 : (ext l00 g).pos2tr.getLast? = some g := by simp [ext]
  refine update_none hb00 hg0 hprev hlen (sorts_lt hs hlen) ?_ ?_
  · intro x hx
    refine ⟨(hval x hx).1, ?_⟩
    rcases (hval x hx).2 with h | h
    · obtain ⟨p, hp⟩ := List.mem_iff_getElem?.1 h
      exact at_lt (ext_good hb00.good hg0) (last_at hlast0 hp)
    · obtain ⟨p, hp⟩ := List.mem_iff_getElem?.1 h
      have := at_lt hb00.good (last_at hprev hp)
      have h2 : (ext l00 g).trajstart.length = l00.trajstart.length + (newOf g l00.trajstart.length).length := by simp [ext]
      omega
  · intro x hx
    rcases hnone x hx with h | ⟨tr, h1, h2⟩
    · exact Or.inl h
    · right
      rw [← hnb', List.getD_eq_getElem?_getD, h1]
      exact h2

/-- The hypotheses are met by no link at all. -/
example : exLinker.pos2tr = [] ++ [[0, 1, 2], [0, 2], [2, 0, 3]] ∧ exLinker.nbtrajs[1]? = some 3 := ⟨rfl, rfl⟩

/-- C148, the part that is false. `update` does not check that the trajectories ended two frames ago: with one that ended earlier, the
trajectory passes by a position that does not exist. -/
theorem C148_older_counterexample : ∃ (l l' : Linker) (grown : List Bool), Reached exSort l ∧
    l.update exSort [(1, 1)] [1] = .ok (l', grown) ∧ l'.Visits 1 1 1 ∧ ∀ tr, ¬ l'.At 1 1 tr := by
  have h1 : Reached exSort ⟨[[0, 0], [1]], [[0, 1], [0]], [0, 0], [2, 2]⟩ :=
    .load (prev := [0, 1]) (f := [0]) (.new 2) rfl (by decide) rfl (by decide +kernel)
  have h2 : Reached exSort ⟨[[0, 0, 0], [1]], [[0, 1], [0], [0]], [0, 0], [2, 2, 2]⟩ :=
    .load (prev := [0]) (f := [0]) h1 rfl (by decide) rfl (by decide +kernel)
  have h3 : Reached exSort ⟨[[0, 0, 0, 0], [1], [1]], [[0, 1], [0], [0], [0, 2]], [0, 0, 3], [2, 2, 2, 3]⟩ :=
    .load (prev := [0]) (f := [0, 2]) h2 rfl (by decide) rfl (by decide +kernel)
  refine ⟨_, ⟨[[0, 0, 0, 0], [1, 1, 1]], [[0, 1], [0], [0, 1], [0, 1]], [0, 0], [2, 2, 2, 2]⟩, [false, true], h3, ?_, ?_, ?_⟩
  · simp [update, exSort, arrange, idx, upd, filterStep, notUsed, number, List.modify, ok_bind, List.range_succ, List.replicate]
  · exact ⟨0, [1, 1, 1], rfl, rfl, by omega, rfl⟩
  · rintro tr ⟨f, hf, h⟩
    have : f = [0] := (Option.some.inj hf).symm
    subst this
    simp at h

/-- C148, the part that is false. `loadFrame` does not check the numbers of the new trajectories: a position may belong to a trajectory that
does not exist. -/
theorem C148_numbers_counterexample : ∃ l', (new 1).loadFrame [0, 5] = .ok l' ∧ l'.At 1 1 5 ∧ ∀ t p, ¬ l'.Visits 5 t p := by
  refine ⟨⟨[[0, 0], [1]], [[0], [0, 5]], [0, 1], [1, 2]⟩, by decide +kernel, ⟨[0, 5], rfl, rfl⟩, ?_⟩
  rintro t p ⟨s, st, h, _⟩
  simp at h

end Linker
end Py
end Colloids
