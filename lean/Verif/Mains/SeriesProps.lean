import Verif.Mains.SeriesModel
import Verif.Dyn.IsfWrapProps
import Verif.Dyn.MsdProps

/-! # C139, C140: the programs that write functions of time -/

namespace Colloids
namespace Mains

open Dyn

variable {G : Type} [Field G] [LinearOrder G]

theorem toSize_nat {n : Nat} (h : n < 2 ^ 64) : toSize (n : Int) = n := by
  unfold toSize
  have hs : (szMod : Int) = 2 ^ 64 := by unfold szMod; norm_num
  rw [hs]
  omega

theorem runFiles_append {α β : Type} (f : β → R α) (l : List β) {as : List α} (h : l.mapM f = .ok as) (l' : List β) :
    runFiles f (l ++ l') = ⟨as ++ (runFiles f l').files, (runFiles f l').status⟩ := by
  induction l generalizing as with
  | nil => cases h; rfl
  | cons b l ih =>
    rw [List.mapM_cons] at h
    obtain ⟨a, h1, h⟩ := bind_ok.1 h
    obtain ⟨as', h2, h⟩ := bind_ok.1 h
    cases h
    show runFiles f (b :: (l ++ l')) = _
    simp only [runFiles, h1, ih h2, List.cons_append]

theorem runFiles_error {α β : Type} (f : β → R α) {b : β} {e : Fault} (h : f b = .error e) (l : List β) :
    runFiles f (b :: l) = ⟨[], some e⟩ := by simp only [runFiles, h]

/-- The arguments of a list of subsets. -/
def argsOf (reqs : List (Nat × Nat × Nat)) : List Int := reqs.flatMap fun r => [(r.1 : Int), (r.2.1 : Int), (r.2.2 : Int)]

theorem subsets_args (reqs : List (Nat × Nat × Nat)) (rest : List Int) :
    subsets (argsOf reqs ++ rest) = reqs.map (fun r => ((r.1 : Int), (r.2.1 : Int), (r.2.2 : Int))) ++ subsets rest := by
  induction reqs with
  | nil => rfl
  | cons r reqs ih =>
    show _ :: subsets (argsOf reqs ++ rest) = _
    rw [ih]; rfl

theorem subsets_short {rest : List Int} (h : rest.length < 3) : subsets rest = [] := by
  match rest, h with
  | [], _ => rfl
  | [_], _ => rfl
  | [_, _], _ => rfl

theorem outOfFilm_false {n : Nat} (hn : n < 2 ^ 64) {a b c : Nat} (h1 : a ≤ b) (h2 : b + c + 1 ≤ n) :
    outOfFilm n a b c = false := by
  have hs : szMod = 2 ^ 64 := by unfold szMod; rfl
  unfold outOfFilm
  rw [hs, Nat.mod_eq_of_lt (by omega), Nat.mod_eq_of_lt (by omega)]
  simp only [Bool.or_eq_false_iff, decide_eq_false_iff_not]
  omega

theorem outOfFilm_true {n : Nat} {a b c : Nat} (ha : a < 2 ^ 63) (hb : b < 2 ^ 62) (hc : c < 2 ^ 62)
    (h : n ≤ a ∨ n ≤ b + c) : outOfFilm n a b c = true := by
  have hs : szMod = 2 ^ 64 := by unfold szMod; rfl
  unfold outOfFilm
  rw [hs, Nat.mod_eq_of_lt (by omega), Nat.mod_eq_of_lt (by omega)]
  simp only [Bool.or_eq_true, decide_eq_true_eq]
  omega

theorem rowsOf_length (dt : G) (l : List (Option G)) : (rowsOf dt l).length = l.length := by simp [rowsOf]

theorem rowsOf_get (dt : G) (l : List (Option G)) (d : Nat) :
    (rowsOf dt l)[d]? = (l[d]?).map fun y => ((d : G) * dt, y) := by
  unfold rowsOf
  rw [List.getElem?_map, List.getElem?_zipIdx]
  cases l[d]? <;> simp

/-- The film without drift, as a translation of each frame. -/
theorem drift_film [IsStrictOrderedRing G] {D D' : DynParts G} (hw : Wf D) (hi : D.index = none)
    (h : removeDrift D = .ok D') :
    Wf D' ∧ D'.index = none ∧ D'.radius = D.radius ∧ D'.trajectories = D.trajectories ∧
      D'.positions.length = D.positions.length := by
  obtain ⟨v, D1, h1, h2, hix, hrad, h3, -⟩ := removeDrift_spec hw (fun t ht => by
    obtain ⟨l, k1, -, k3⟩ := driftSelection_spec hw hi ht
    exact ⟨l, k1, fun tr htr => (k3 tr).1 htr⟩)
  rw [h] at h1
  cases h1
  refine ⟨wf_translate hw v h2 h3, hix, hrad, h2, ?_⟩
  apply le_antisymm
  · have := h3 D.positions.length
    simpa using this
  · have := h3 D'.positions.length
    by_contra hlt
    rw [List.getElem?_eq_none le_rfl, List.getElem?_eq_getElem (by omega)] at this
    cases this

/-- A subset that the film can give: `start ≤ stop`, `stop+av` in the film, a trajectory as long as the interval. -/
structure Asked (n L : Nat) (r : Nat × Nat × Nat) : Prop where
  order : r.1 ≤ r.2.1
  film : r.2.1 + r.2.2 + 1 ≤ n
  long : r.2.1 - r.1 + 1 ≤ L

/-- The mean square displacement at lag `d` of the positions `x`, for a subset: with `av = 0` over all the starts and
the trajectories that span the interval; else over the starts from `start` to `av-1` and the trajectories that span the
interval from each. -/
def IsMsd (D : DynParts G) (x : Nat → Nat → Coord G) (r : Nat × Nat × Nat) (d : Nat) (y : Option G) : Prop :=
  (r.2.2 = 0 → ∀ sel, IsSpanning D r.1 r.2.1 sel → sel ≠ [] →
    y = some ((∑ s ∈ Finset.Icc r.1 (r.2.1 - d), sumSq sel x s (s + d)) /
      ((Finset.Icc r.1 (r.2.1 - d)).card * sel.length))) ∧
  (0 < r.2.2 → ∀ sel : Nat → List Nat, (∀ s, r.1 ≤ s → s < r.2.2 → IsSpanning D s (s + (r.2.1 - r.1)) (sel s)) →
    y = quot (∑ s ∈ Finset.Ico r.1 r.2.2, sumSq (sel s) x s (s + d))
      ((∑ s ∈ Finset.Ico r.1 r.2.2, (sel s).length : Nat) : G))

theorem spanning_exists [IsStrictOrderedRing G] {D : DynParts G} (hw : Wf D) (hi : D.index = none) {t0 t1 : Nat}
    (h01 : t0 ≤ t1) (h1 : t1 < D.positions.length) : ∃ l, IsSpanning D t0 t1 l := by
  obtain ⟨l, -, h3, h4⟩ := C43_spanning_partial hw hi h01 h1
  exact ⟨l, h3, h4⟩

theorem getMSD_asked [IsStrictOrderedRing G] {D : DynParts G} (hw : Wf D) (hi : D.index = none) {L : Nat}
    (hL : D.trajectories.longestSpan = .ok L) {x : Nat → Nat → Coord G}
    (hx : ∀ tr t, Exists D tr t → at_ D tr t = .ok (x tr t)) {r : Nat × Nat × Nat} (hr : Asked D.positions.length L r) :
    ∃ l, getMSD D r.1 r.2.1 r.2.2 = .ok l ∧ l.length = r.2.1 - r.1 + 1 ∧
      ∀ d ≤ r.2.1 - r.1, ∃ y, l[d]? = some y ∧ IsMsd D x r d y := by
  obtain ⟨a, b, c⟩ := r
  obtain ⟨h1, h2, h3⟩ := hr
  simp only at h1 h2 h3 ⊢
  have uniq : ∀ {s e : Nat} {l l' : List Nat}, IsSpanning D s e l → IsSpanning D s e l' → l = l' :=
    fun h h' => sorted_ext h.sorted h'.sorted (fun tr => by rw [h.mem, h'.mem])
  by_cases hc : c = 0
  · subst hc
    obtain ⟨sel, hsel⟩ := spanning_exists hw hi h1 (by omega : b < D.positions.length)
    rw [C42_spanning_partial hw hi h1 (by omega) hL h3 hsel]
    by_cases hne : sel = []
    · subst hne
      refine ⟨_, rfl, by simp, ?_⟩
      intro d hd
      refine ⟨some 0, ?_, ?_, fun h => absurd h (by simp)⟩
      · rw [List.getElem?_map, List.getElem?_replicate, if_pos (by omega)]; rfl
      · intro _ sel' h' hne'
        exact absurd (uniq h' hsel) hne'
    · obtain ⟨l, k1, k2, -, -, k5⟩ := C42_msd (D := D) hne h1 (x := x) (fun tr htr t ht ht' =>
        hx tr t ((hsel.mem tr).1 htr t ht ht'))
      rw [k1]
      refine ⟨_, rfl, by simp [k2], ?_⟩
      intro d hd
      refine ⟨_, by rw [List.getElem?_map, k5 d hd]; rfl, ?_, fun h => absurd h (by simp)⟩
      intro _ sel' h' _
      simp only at h' ⊢
      rw [uniq h' hsel]
  · have hall : ∀ s, ∃ l, a ≤ s → s < c → IsSpanning D s (s + (b - a)) l := by
      intro s
      by_cases hs : s < c
      · obtain ⟨l, hl⟩ := spanning_exists hw hi (t0 := s) (t1 := s + (b - a)) (by omega) (by omega)
        exact ⟨l, fun _ _ => hl⟩
      · exact ⟨[], fun _ h => absurd h hs⟩
    choose sel hsel using hall
    obtain ⟨l, k1, k2, k3⟩ := C42_pooled_partial hw hi h1 (by omega : 0 < c) (by omega) hL h3 sel hsel x hx
    refine ⟨l, k1, k2, ?_⟩
    intro d hd
    refine ⟨_, k3 d hd, fun h => absurd h hc, ?_⟩
    intro _ sel' h'
    simp only at h' ⊢
    have e : ∀ s ∈ Finset.Ico a c, sel' s = sel s := fun s hs => by
      rw [Finset.mem_Ico] at hs
      exact uniq (h' s hs.1 hs.2) (hsel s hs.1 hs.2)
    have e1 : ∑ s ∈ Finset.Ico a c, sumSq (sel' s) x s (s + d) = ∑ s ∈ Finset.Ico a c, sumSq (sel s) x s (s + d) :=
      Finset.sum_congr rfl (fun s hs => by rw [e s hs])
    have e2 : ∑ s ∈ Finset.Ico a c, (sel' s).length = ∑ s ∈ Finset.Ico a c, (sel s).length :=
      Finset.sum_congr rfl (fun s hs => by rw [e s hs])
    rw [e1, e2]

theorem msdSubset_asked [IsStrictOrderedRing G] {D : DynParts G} (hw : Wf D) (hi : D.index = none) {L : Nat}
    (hN : D.positions.length < 2 ^ 64)
    (hL : D.trajectories.longestSpan = .ok L) {x : Nat → Nat → Coord G}
    (hx : ∀ tr t, Exists D tr t → at_ D tr t = .ok (x tr t)) (dt : G) {r : Nat × Nat × Nat}
    (hr : Asked D.positions.length L r) :
    ∃ f, msdSubset D dt ((r.1 : Int), (r.2.1 : Int), (r.2.2 : Int)) = .ok f ∧ (f.start, f.stop, f.av) = r ∧
      f.rows.length = r.2.1 - r.1 + 1 ∧
      ∀ d ≤ r.2.1 - r.1, ∃ y, f.rows[d]? = some ((d : G) * dt, y) ∧ IsMsd D x r d y := by
  obtain ⟨l, k1, k2, k3⟩ := getMSD_asked hw hi hL hx hr
  obtain ⟨h1, h2, h3⟩ := hr
  refine ⟨⟨r.1, r.2.1, r.2.2, rowsOf dt l⟩, ?_, rfl, by simp [rowsOf_length, k2], ?_⟩
  · unfold msdSubset
    simp only [toSize_nat (show r.1 < 2 ^ 64 by omega), toSize_nat (show r.2.1 < 2 ^ 64 by omega),
      toSize_nat (show r.2.2 < 2 ^ 64 by omega)]
    rw [outOfFilm_false hN h1 h2]
    unfold getMSDAll
    rw [if_pos h1, k1]
    rfl
  · intro d hd
    obtain ⟨y, y1, y2⟩ := k3 d hd
    exact ⟨y, by rw [rowsOf_get, y1]; rfl, y2⟩

/-- A list of results that exist one by one. -/
theorem mapM_exists {α β : Type} (f : β → R α) (l : List β) (Q : β → α → Prop)
    (h : ∀ b ∈ l, ∃ a, f b = .ok a ∧ Q b a) :
    ∃ as, l.mapM f = .ok as ∧ as.length = l.length ∧ ∀ (i : Nat) b a, l[i]? = some b → as[i]? = some a → Q b a := by
  induction l with
  | nil => exact ⟨[], rfl, rfl, fun i b a h => by simp at h⟩
  | cons b l ih =>
    obtain ⟨a, h1, h2⟩ := h b (by simp)
    obtain ⟨as, k1, k2, k3⟩ := ih (fun b' hb' => h b' (by simp [hb']))
    refine ⟨a :: as, by rw [List.mapM_cons, h1, ok_bind, k1, ok_bind, pure_eq_ok], by simp [k2], ?_⟩
    intro i b' a' hb ha
    match i with
    | 0 => cases hb; cases ha; exact h2
    | i + 1 => exact k3 i b' a' hb ha

/-- C139. The program MSD on a film, for intervals in order and in the film that are not longer than the longest
trajectory: it ends well and writes one file per complete group of three numbers, named after them, that has one row
per lag with the time and the mean square displacement of the film without drift. Incomplete groups are ignored. -/
theorem C139_msd_partial [IsStrictOrderedRing G] {D D' : DynParts G} (hw : Wf D) (hi : D.index = none)
    (hN : D.positions.length < 2 ^ 64) (hD : removeDrift D = .ok D') {L : Nat} (hL : D.trajectories.longestSpan = .ok L)
    {x : Nat → Nat → Coord G} (hx : ∀ tr t, Exists D tr t → at_ D' tr t = .ok (x tr t)) (dt : G)
    (reqs : List (Nat × Nat × Nat)) (hr : ∀ r ∈ reqs, Asked D.positions.length L r) {rest : List Int}
    (hrest : rest.length < 3) :
    (msdProgram D dt (argsOf reqs ++ rest)).status = none ∧
    (msdProgram D dt (argsOf reqs ++ rest)).files.length = reqs.length ∧
    ∀ (i : Nat) r f, reqs[i]? = some r → (msdProgram D dt (argsOf reqs ++ rest)).files[i]? = some f →
      (f.start, f.stop, f.av) = r ∧ f.rows.length = r.2.1 - r.1 + 1 ∧
      ∀ d ≤ r.2.1 - r.1, ∃ y, f.rows[d]? = some ((d : G) * dt, y) ∧ IsMsd D x r d y := by
  obtain ⟨g1, g2, -, g3, g4⟩ := drift_film hw hi hD
  have hE : ∀ tr t, Exists D' tr t ↔ Exists D tr t := fun tr t => by unfold Dyn.Exists; rw [g3]
  have hS : ∀ s e l, IsSpanning D' s e l ↔ IsSpanning D s e l := fun s e l =>
    ⟨fun h => ⟨h.sorted, fun tr => by rw [h.mem]; simp only [hE]⟩,
      fun h => ⟨h.sorted, fun tr => by rw [h.mem]; simp only [hE]⟩⟩
  have hM : ∀ r d y, IsMsd D' x r d y ↔ IsMsd D x r d y := by
    intro r d y
    unfold IsMsd
    simp only [hS]
  obtain ⟨as, k1, k2, k3⟩ := mapM_exists (msdSubset D' dt)
    (reqs.map fun r => ((r.1 : Int), (r.2.1 : Int), (r.2.2 : Int)))
    (fun b f => ∀ r ∈ reqs, b = ((r.1 : Int), (r.2.1 : Int), (r.2.2 : Int)) →
      (f.start, f.stop, f.av) = r ∧ f.rows.length = r.2.1 - r.1 + 1 ∧
      ∀ d ≤ r.2.1 - r.1, ∃ y, f.rows[d]? = some ((d : G) * dt, y) ∧ IsMsd D x r d y) (by
    intro b hb
    obtain ⟨r, hr1, rfl⟩ := List.mem_map.1 hb
    obtain ⟨f, f1, f2⟩ := msdSubset_asked g1 g2 (by omega) (by rw [g3]; exact hL) (x := x)
      (fun tr t h => hx tr t ((hE tr t).1 h)) dt (r := r) (by rw [g4]; exact hr r hr1)
    refine ⟨f, f1, ?_⟩
    rintro ⟨a, b, c⟩ - e
    obtain ⟨a', b', c'⟩ := r
    simp only [Prod.mk.injEq, Nat.cast_inj] at e
    obtain ⟨rfl, rfl, rfl⟩ := e
    simpa only [hM] using f2)
  have hprog : msdProgram D dt (argsOf reqs ++ rest) = ⟨as, none⟩ := by
    unfold msdProgram
    rw [hD]
    show runFiles _ _ = _
    rw [subsets_args, runFiles_append _ _ k1, subsets_short hrest]
    simp [runFiles]
  rw [hprog]
  refine ⟨rfl, by simpa using k2, ?_⟩
  intro i r f h1 h2
  exact k3 i _ f (by rw [List.getElem?_map, h1]; rfl) h2 r (List.mem_of_getElem? h1) rfl

/-- C139. An interval that goes out of the film is refused; the files before are written, those after are not. -/
theorem C139_msd_refused [IsStrictOrderedRing G] {D D' : DynParts G} (hw : Wf D) (hi : D.index = none)
    (hD : removeDrift D = .ok D') (dt : G) (reqs : List (Nat × Nat × Nat)) {fs : List (SeriesFile G)}
    (hb : msdProgram D dt (argsOf reqs) = ⟨fs, none⟩) {r : Nat × Nat × Nat} (ha : r.1 < 2 ^ 63)
    (hs : r.2.1 < 2 ^ 62) (hv : r.2.2 < 2 ^ 62) (hout : D.positions.length ≤ r.1 ∨ D.positions.length ≤ r.2.1 + r.2.2)
    (rest : List Int) :
    msdProgram D dt (argsOf (reqs ++ [r]) ++ rest) = ⟨fs, some .invalidArgument⟩ := by
  obtain ⟨-, -, -, -, g4⟩ := drift_film hw hi hD
  have hbad : msdSubset D' dt ((r.1 : Int), (r.2.1 : Int), (r.2.2 : Int)) = .error .invalidArgument := by
    unfold msdSubset
    simp only [toSize_nat (show r.1 < 2 ^ 64 by omega), toSize_nat (show r.2.1 < 2 ^ 64 by omega),
      toSize_nat (show r.2.2 < 2 ^ 64 by omega)]
    rw [g4, outOfFilm_true ha hs hv hout]
    rfl
  have hok : ∀ (l : List (Int × Int × Int)) fs, runFiles (msdSubset D' dt) l = ⟨fs, none⟩ →
      l.mapM (msdSubset D' dt) = .ok fs := by
    intro l
    induction l with
    | nil => intro fs h; cases h; rfl
    | cons b l ih =>
      intro fs h
      unfold runFiles at h
      cases hf : msdSubset D' dt b with
      | error e => rw [hf] at h; cases h
      | ok a =>
        rw [hf] at h
        simp only [Report.mk.injEq] at h
        rw [List.mapM_cons, hf, ok_bind, ih (runFiles (msdSubset D' dt) l).files (by rw [← h.2]), ok_bind, ← h.1]
        rfl
  unfold msdProgram at hb ⊢
  rw [hD] at hb ⊢
  have hb : runFiles (msdSubset D' dt) (subsets (argsOf reqs)) = ⟨fs, none⟩ := hb
  show runFiles (msdSubset D' dt) _ = _
  have e := subsets_args reqs []
  simp only [List.append_nil, subsets] at e
  rw [e] at hb
  rw [subsets_args, List.map_append, List.append_assoc, runFiles_append _ _ (hok _ _ hb)]
  show (⟨fs ++ (runFiles (msdSubset D' dt) (_ :: _)).files, (runFiles (msdSubset D' dt) (_ :: _)).status⟩ : Report _) = _
  rw [runFiles_error _ hbad]
  simp

/-- C139. A third number that is not larger than the first one, as the documentation of `getMSD` suggests (the number
of starts), gives a file in which no value is defined, without warning. -/
theorem C139_msd_average_counterexample [IsStrictOrderedRing G] {D D' : DynParts G} (hw : Wf D) (hi : D.index = none)
    (hN : D.positions.length < 2 ^ 64) (hD : removeDrift D = .ok D') {L : Nat} (hL : D.trajectories.longestSpan = .ok L)
    (dt : G) {r : Nat × Nat × Nat} (hr : Asked D.positions.length L r) (h1 : 0 < r.2.2) (h2 : r.2.2 ≤ r.1) :
    ∃ f, msdProgram D dt (argsOf [r]) = ⟨[f], none⟩ ∧ f.rows.length = r.2.1 - r.1 + 1 ∧ ∀ y ∈ f.rows, y.2 = none := by
  obtain ⟨-, -, -, g3, g4⟩ := drift_film hw hi hD
  obtain ⟨k1, k2, k3⟩ := hr
  refine ⟨⟨r.1, r.2.1, r.2.2, rowsOf dt (List.replicate (r.2.1 - r.1 + 1) none)⟩, ?_, by simp [rowsOf], ?_⟩
  · unfold msdProgram
    rw [hD]
    show runFiles _ [((r.1 : Int), (r.2.1 : Int), (r.2.2 : Int))] = _
    have hf : msdSubset D' dt ((r.1 : Int), (r.2.1 : Int), (r.2.2 : Int)) =
        .ok ⟨r.1, r.2.1, r.2.2, rowsOf dt (List.replicate (r.2.1 - r.1 + 1) none)⟩ := by
      unfold msdSubset
      simp only [toSize_nat (show r.1 < 2 ^ 64 by omega), toSize_nat (show r.2.1 < 2 ^ 64 by omega),
        toSize_nat (show r.2.2 < 2 ^ 64 by omega)]
      rw [outOfFilm_false (by omega) k1 (by omega)]
      unfold getMSDAll
      rw [if_pos k1, C42_window_counterexample h1 h2 (by rw [g3]; exact hL) k3]
      rfl
    simp only [runFiles, hf]
  · intro y hy
    obtain ⟨d, hd⟩ := List.mem_iff_getElem?.1 hy
    rw [rowsOf_get, List.getElem?_replicate] at hd
    by_cases hlt : d < r.2.1 - r.1 + 1
    · rw [if_pos hlt] at hd; cases hd; rfl
    · rw [if_neg hlt] at hd; cases hd

/-- C139. A first number `-1` goes through the test: the frame `2^64-1` is read. -/
theorem C139_msd_negative_counterexample [IsStrictOrderedRing G] {D D' : DynParts G} (hw : Wf D) (hi : D.index = none)
    (hN : D.positions.length < 2 ^ 64 - 1) (hD : removeDrift D = .ok D') {L : Nat}
    (hL : D.trajectories.longestSpan = .ok L) (dt : G) {stop : Nat} (hs : stop + 2 ≤ L)
    (hs' : stop < D.positions.length) : msdProgram D dt [-1, stop, 0] = ⟨[], some .ub⟩ := by
  obtain ⟨g1, g2, -, g3, g4⟩ := drift_film hw hi hD
  have hz : szMod = 2 ^ 64 := by unfold szMod; rfl
  have h1 : toSize (-1) = 2 ^ 64 - 1 := by
    unfold toSize
    rw [hz]; decide
  have h0 : toSize 0 = 0 := by simp [toSize]
  have hl : D'.trajectories.inverse.length = D'.positions.length := by
    have := congrArg List.length g1.frames
    simpa using this
  have hbad : msdSubset D' dt (-1, (stop : Int), 0) = .error .ub := by
    unfold msdSubset
    simp only [h1, h0, toSize_nat (show stop < 2 ^ 64 by omega)]
    have ho : outOfFilm D'.positions.length (2 ^ 64 - 1) stop 0 = false := by
      unfold outOfFilm
      rw [hz, Nat.mod_eq_of_lt (show stop + 0 + 1 < 2 ^ 64 by omega)]
      simp only [Bool.or_eq_false_iff, decide_eq_false_iff_not]
      omega
    rw [ho, if_neg Bool.false_ne_true]
    unfold getMSDAll
    rw [if_neg (by omega), g3, hL, ok_bind]
    have hn : (stop + 1 + (szMod - (2 ^ 64 - 1) % szMod)) % szMod = stop + 2 := by
      rw [hz]
      omega
    simp only [hn]
    rw [if_neg (by omega)]
    unfold getMSDReversed
    rw [if_pos rfl]
    unfold selectSpanning
    rw [g2]
    simp only
    rw [getR_eq_ub (by omega)]
    rfl
  unfold msdProgram
  rw [hD]
  show runFiles _ [(-1, (stop : Int), 0)] = _
  rw [runFiles_error _ hbad]

/-- C139. An interval whose end is just before its start goes through both tests, and is undefined as soon as a
trajectory exists at both times. One that ends earlier is refused. -/
theorem C139_msd_reversed_counterexample [IsStrictOrderedRing G] {D D' : DynParts G} (hw : Wf D) (hi : D.index = none)
    (hN : D.positions.length < 2 ^ 64 - 1) (hD : removeDrift D = .ok D') {L : Nat}
    (hL : D.trajectories.longestSpan = .ok L) (hL' : L < 2 ^ 63) (dt : G) {start stop : Nat}
    (hs : start < D.positions.length) (hN' : D.positions.length < 2 ^ 63) :
    (stop + 1 = start → (∃ tr, Exists D tr stop ∧ Exists D tr start) →
      msdProgram D dt [start, stop, 0] = ⟨[], some .ub⟩) ∧
    (stop + 1 < start → msdProgram D dt [start, stop, 0] = ⟨[], some .invalidArgument⟩) := by
  obtain ⟨g1, g2, -, g3, g4⟩ := drift_film hw hi hD
  have hz : szMod = 2 ^ 64 := by unfold szMod; rfl
  have h0 : toSize 0 = 0 := by simp [toSize]
  have hrun : ∀ {e : Fault}, stop < start → msdSubset D' dt ((start : Int), (stop : Int), 0) = .error e →
      msdProgram D dt [(start : Int), stop, 0] = ⟨[], some e⟩ := by
    intro e _ h
    unfold msdProgram
    rw [hD]
    show runFiles _ [((start : Int), (stop : Int), 0)] = _
    rw [runFiles_error _ h]
  have hsub : stop < start → msdSubset D' dt ((start : Int), (stop : Int), 0) =
      (do let l ← getMSDAll D' start stop 0
          pure ⟨start, stop, 0, rowsOf dt l⟩) := by
    intro hlt
    unfold msdSubset
    simp only [h0, toSize_nat (show stop < 2 ^ 64 by omega), toSize_nat (show start < 2 ^ 64 by omega)]
    have ho : outOfFilm D'.positions.length start stop 0 = false := by
      unfold outOfFilm
      rw [hz, Nat.mod_eq_of_lt (show stop + 0 + 1 < 2 ^ 64 by omega), Nat.mod_eq_of_lt (show start + 1 < 2 ^ 64 by omega)]
      simp only [Bool.or_eq_false_iff, decide_eq_false_iff_not]
      omega
    rw [ho]
    rfl
  constructor
  · rintro rfl ⟨tr, e1, e2⟩
    refine hrun (by omega) ?_
    rw [hsub (by omega)]
    unfold getMSDAll
    rw [if_neg (by omega), g3, hL, ok_bind]
    have hn : (stop + 1 + (szMod - (stop + 1) % szMod)) % szMod = 0 := by
      rw [hz]
      omega
    simp only [hn]
    rw [if_neg (by omega)]
    unfold getMSDReversed
    rw [if_pos rfl]
    obtain ⟨a, ha, -⟩ := g1.row (t := stop + 1) (ps := D'.positions[stop + 1]) (by simp)
    obtain ⟨b, hb, -⟩ := g1.row (t := stop) (ps := D'.positions[stop]) (by simp)
    have hE : ∀ tr t, Exists D' tr t ↔ Exists D tr t := fun tr t => by unfold Dyn.Exists; rw [g3]
    have hmem : tr ∈ Boo.setIntersection (sortUnique a) (sortUnique b) := by
      rw [mem_setIntersection' (sortUnique_sorted _) (sortUnique_sorted _), mem_sortUnique, mem_sortUnique,
        ← exists_iff_mem g1 ha, ← exists_iff_mem g1 hb, hE, hE]
      exact ⟨e2, e1⟩
    unfold selectSpanning
    rw [g2]
    simp only [getR_ok.2 ha, getR_ok.2 hb, ok_bind, pure_eq_ok]
    rw [if_neg]
    · rfl
    · intro h
      rw [List.isEmpty_iff] at h
      rw [h] at hmem
      cases hmem
  · intro hlt
    refine hrun (by omega) ?_
    rw [hsub (by omega)]
    unfold getMSDAll
    rw [if_neg (by omega), g3, hL, ok_bind]
    have hn : (stop + 1 + (szMod - start % szMod)) % szMod = stop + 1 + (2 ^ 64 - start) := by
      rw [hz]
      omega
    simp only [hn]
    rw [if_pos (by omega)]
    rfl

/-- C139. The program ISF, for intervals in order and in the film, with a third number larger than the first one and
with a trajectory for each start: it writes one file per complete group of three numbers, with the time and the mean
over the axes, the starts and the trajectories of the cosines of the displacements without drift. -/
theorem C139_isf_partial {D D' : DynParts ℝ} (hw : Wf D) (hi : D.index = none) (hN : D.positions.length < 2 ^ 64)
    (hD : removeDrift D = .ok D') {L : Nat} (hL : D.trajectories.longestSpan = .ok L)
    {x : Nat → Nat → Coord ℝ} (hx : ∀ tr t, Exists D tr t → at_ D' tr t = .ok (x tr t)) (dt : ℝ)
    (reqs : List (Nat × Nat × Nat)) (sel : Nat × Nat × Nat → Nat → List Nat)
    (hr : ∀ r ∈ reqs, Asked D.positions.length L r ∧ r.1 < r.2.1 ∧ r.1 < r.2.2 ∧ ∀ s, r.1 ≤ s → s < r.2.2 →
      IsSpanning D s (s + (r.2.1 - r.1)) (sel r s) ∧ sel r s ≠ []) {rest : List Int} (hrest : rest.length < 3) :
    (isfProgram D dt (argsOf reqs ++ rest)).status = none ∧
    (isfProgram D dt (argsOf reqs ++ rest)).files.length = reqs.length ∧
    ∀ (i : Nat) r f, reqs[i]? = some r → (isfProgram D dt (argsOf reqs ++ rest)).files[i]? = some f →
      (f.start, f.stop, f.av) = r ∧ f.rows.length = r.2.1 - r.1 ∧
      ∀ d < r.2.1 - r.1, f.rows[d]? = some ((d : ℝ) * dt,
        some ((∑ s ∈ Finset.Ico r.1 r.2.2, ∑ k : Fin 3, ((sel r s).map fun tr =>
            Real.cos (2 * Real.pi * (x tr (s + d) k - x tr s k) / (2 * D.radius))).sum) /
          (((∑ s ∈ Finset.Ico r.1 r.2.2, (sel r s).length : Nat) : ℝ) * 3))) := by
  obtain ⟨g1, g2, g5, g3, g4⟩ := drift_film hw hi hD
  have hE : ∀ tr t, Exists D' tr t ↔ Exists D tr t := fun tr t => by unfold Dyn.Exists; rw [g3]
  have hS : ∀ s e l, IsSpanning D s e l → IsSpanning D' s e l := fun s e l h =>
    ⟨h.sorted, fun tr => by rw [h.mem]; simp only [hE]⟩
  obtain ⟨as, k1, k2, k3⟩ := mapM_exists (isfSubset D' dt)
    (reqs.map fun r => ((r.1 : Int), (r.2.1 : Int), (r.2.2 : Int)))
    (fun b f => ∀ r ∈ reqs, b = ((r.1 : Int), (r.2.1 : Int), (r.2.2 : Int)) →
      (f.start, f.stop, f.av) = r ∧ f.rows.length = r.2.1 - r.1 ∧
      ∀ d < r.2.1 - r.1, f.rows[d]? = some ((d : ℝ) * dt,
        some ((∑ s ∈ Finset.Ico r.1 r.2.2, ∑ k : Fin 3, ((sel r s).map fun tr =>
            Real.cos (2 * Real.pi * (x tr (s + d) k - x tr s k) / (2 * D.radius))).sum) /
          (((∑ s ∈ Finset.Ico r.1 r.2.2, (sel r s).length : Nat) : ℝ) * 3)))) (by
    intro b hb
    obtain ⟨r, hr1, rfl⟩ := List.mem_map.1 hb
    obtain ⟨⟨h1, h2, h3⟩, h4, h5, h6⟩ := hr r hr1
    obtain ⟨l, l1, l2, -, -, l5⟩ := C124_mean_partial g1 g2 h4 h5 (by rw [g4]; exact h2) (by rw [g3]; exact hL) h3
      (sel r) (fun s hs hs' => ⟨hS _ _ _ (h6 s hs hs').1, (h6 s hs hs').2⟩) x (fun tr t h => hx tr t ((hE tr t).1 h))
    refine ⟨⟨r.1, r.2.1, r.2.2, rowsOf dt (l.map some)⟩, ?_, ?_⟩
    · unfold isfSubset
      simp only [toSize_nat (show r.1 < 2 ^ 64 by omega), toSize_nat (show r.2.1 < 2 ^ 64 by omega),
        toSize_nat (show r.2.2 < 2 ^ 64 by omega)]
      rw [outOfFilm_false (by omega) h1 (by omega), l1]
      rfl
    · rintro ⟨a, b, c⟩ - e
      obtain ⟨a', b', c'⟩ := r
      simp only [Prod.mk.injEq, Nat.cast_inj] at e
      obtain ⟨rfl, rfl, rfl⟩ := e
      refine ⟨rfl, by rw [rowsOf_length, List.length_map, l2], ?_⟩
      intro d hd
      rw [rowsOf_get, List.getElem?_map, l5 d hd, g5]
      rfl)
  have hprog : isfProgram D dt (argsOf reqs ++ rest) = ⟨as, none⟩ := by
    unfold isfProgram
    rw [hD]
    show runFiles _ _ = _
    rw [subsets_args, runFiles_append _ _ k1, subsets_short hrest]
    simp [runFiles]
  rw [hprog]
  refine ⟨rfl, by simpa using k2, ?_⟩
  intro i r f h1 h2
  exact k3 i _ f (by rw [List.getElem?_map, h1]; rfl) h2 r (List.mem_of_getElem? h1) rfl

/-- C139. With a third number `0`, that the program accepts, ISF is always undefined. -/
theorem C139_isf_greedy_counterexample {D D' : DynParts ℝ} (hw : Wf D) (hi : D.index = none)
    (hN : D.positions.length < 2 ^ 64) (hD : removeDrift D = .ok D') {L : Nat} (hL : D.trajectories.longestSpan = .ok L)
    (dt : ℝ) {start stop : Nat} (hr : Asked D.positions.length L (start, stop, 0)) :
    isfProgram D dt [start, stop, 0] = ⟨[], some .ub⟩ := by
  obtain ⟨g1, g2, -, g3, g4⟩ := drift_film hw hi hD
  obtain ⟨h1, h2, h3⟩ := hr
  simp only at h1 h2 h3
  obtain ⟨sel, hsel⟩ := spanning_exists g1 g2 h1 (by omega : stop < D'.positions.length)
  have hplaces : ∃ x, Places D' sel start stop x := by
    classical
    refine ⟨fun tr t => if h : ∃ y, at_ D' tr t = .ok y then h.choose else 0, ?_⟩
    intro tr htr t ht ht'
    have h := (at_ok g1).1 ((hsel.mem tr).1 htr t ht ht')
    show at_ D' tr t = .ok (if h : ∃ y, at_ D' tr t = .ok y then h.choose else 0)
    rw [dif_pos h]
    exact h.choose_spec
  obtain ⟨x, hx⟩ := hplaces
  have hbad : isfSubset D' dt ((start : Int), (stop : Int), 0) = .error .ub := by
    unfold isfSubset
    have h0 : toSize 0 = 0 := by simp [toSize]
    simp only [h0, toSize_nat (show stop < 2 ^ 64 by omega), toSize_nat (show start < 2 ^ 64 by omega)]
    rw [outOfFilm_false (by omega) h1 (by omega),
      (C124_greedy_counterexample g1 g2 h1 (by omega) (by rw [g3]; exact hL) h3 hsel hx 0).2]
    rfl
  unfold isfProgram
  rw [hD]
  show runFiles _ [((start : Int), (stop : Int), 0)] = _
  rw [runFiles_error _ hbad]

/-- C139. The program dynamics, in its three modes, is always undefined. -/
theorem C139_dynamics_counterexample {D : DynParts ℝ} (hw : Wf D) (hi : D.index = none) (hr : D.radius ≠ 0)
    (h : 0 < D.positions.length) {mode : Nat} (hm : mode ≤ 2) : dynamicsProgram D mode = .error .ub := by
  have key : ∀ D : DynParts ℝ, Wf D → D.index = none → D.radius ≠ 0 → 0 < D.positions.length →
      makeDynamicsAll D = .error .ub := by
    intro D hw hi hr h
    obtain ⟨sel, hsel⟩ := spanning_exists hw hi (Nat.zero_le (D.positions.length - 1)) (by omega)
    have hplaces : ∃ x, Places D sel 0 (D.positions.length - 1) x := by
      classical
      refine ⟨fun tr t => if h : ∃ y, at_ D tr t = .ok y then h.choose else 0, ?_⟩
      intro tr htr t ht ht'
      have h := (at_ok hw).1 ((hsel.mem tr).1 htr t ht ht')
      show at_ D tr t = .ok (if h : ∃ y, at_ D tr t = .ok y then h.choose else 0)
      rw [dif_pos h]
      exact h.choose_spec
    obtain ⟨x, hx⟩ := hplaces
    exact C125_export_counterexample hw hi hr h hsel hx
  obtain ⟨v, D', h1, -⟩ := C41_removeDrift_partial hw hi
  obtain ⟨g1, g2, g5, -, g4⟩ := drift_film hw hi h1
  unfold dynamicsProgram
  by_cases h02 : mode = 0 ∨ mode = 2
  · rw [if_pos h02, key D hw hi hr h]
    rfl
  · have hm1 : mode = 1 := by omega
    subst hm1
    simp [h1, key D' g1 g2 (by rw [g5]; exact hr) (by omega), bind, Except.bind, Except.map, pure, Except.pure]

/-- C139. Any other mode is accepted and nothing is written. -/
theorem C139_dynamics_other (D : DynParts ℝ) {mode : Nat} (hm : 2 < mode) : dynamicsProgram D mode = .ok (none, none) := by
  unfold dynamicsProgram
  have h0 : ¬ (mode = 0 ∨ mode = 2) := by omega
  have h1 : ¬ (mode = 1 ∨ mode = 2) := by omega
  simp [h0, h1, bind, Except.bind, pure, Except.pure]

/-! ## Drift -/

/-- C140. The program drift writes for each time but the last one the mean displacement to the next time of the
trajectories that exist at both times; the null vector if there are less than two. -/
theorem C140_drift [IsStrictOrderedRing G] {D : DynParts G} (hw : Wf D) (hi : D.index = none)
    (hN : 0 < D.positions.length) {x : Nat → Nat → Coord G} (hx : ∀ tr t, Exists D tr t → at_ D tr t = .ok (x tr t)) :
    ∃ rows, driftProgram D = .ok rows ∧ rows.length = D.positions.length - 1 ∧
      ∀ (t : Nat) row, rows[t]? = some row → row.1 = t ∧ ∀ sel : List Nat, sel.Nodup →
        (∀ tr, tr ∈ sel ↔ Exists D tr t ∧ Exists D tr (t + 1)) →
        (2 ≤ sel.length → ∀ a, row.2 a * sel.length = (sel.map fun tr => x tr (t + 1) a - x tr t a).sum) ∧
        (sel.length < 2 → row.2 = 0) := by
  obtain ⟨rows, k1, k2, k3⟩ := mapM_exists (fun t => do
      let sel ← selectSpanning D t (t + 1)
      let d ← getDriftOf D sel t (t + 1)
      pure (t, d)) (List.range (D.positions.length - 1)) (fun t row => row.1 = t ∧ ∀ sel : List Nat, sel.Nodup →
        (∀ tr, tr ∈ sel ↔ Exists D tr t ∧ Exists D tr (t + 1)) →
        (2 ≤ sel.length → ∀ a, row.2 a * sel.length = (sel.map fun tr => x tr (t + 1) a - x tr t a).sum) ∧
        (sel.length < 2 → row.2 = 0)) (by
    intro t ht
    rw [List.mem_range] at ht
    obtain ⟨l, l1, l2, l3⟩ := C43_spanning_partial hw hi (t0 := t) (t1 := t + 1) (by omega) (by omega)
    have l3 : ∀ tr, tr ∈ l ↔ Exists D tr t ∧ Exists D tr (t + 1) := fun tr => by
      rw [l3]
      constructor
      · exact fun h => ⟨h t le_rfl (by omega), h (t + 1) (by omega) le_rfl⟩
      · rintro ⟨e1, e2⟩ u h1 h2
        rcases (by omega : u = t ∨ u = t + 1) with rfl | rfl
        · exact e1
        · exact e2
    have hperm : ∀ sel : List Nat, sel.Nodup → (∀ tr, tr ∈ sel ↔ Exists D tr t ∧ Exists D tr (t + 1)) → sel.Perm l := by
      intro sel hn hm
      refine (List.perm_ext_iff_of_nodup hn (l2.imp (fun h => Nat.ne_of_lt h))).2 fun tr => by rw [hm, l3]
    have hfold : ∀ (m : List Nat) (d0 : Coord G), (∀ tr ∈ m, tr ∈ l) →
        m.foldlM (fun (drift : Coord G) tr => do
          let diff ← getDiff D tr t tr (t + 1)
          pure (drift + diff)) d0 =
          .ok (fun a => d0 a + (m.map fun tr => x tr (t + 1) a - x tr t a).sum) := by
      intro m
      induction m with
      | nil => intro d0 _; simp [pure_eq_ok]
      | cons tr m ih =>
        intro d0 hm
        obtain ⟨e1, e2⟩ := (l3 tr).1 (hm tr (by simp))
        have hd : getDiff D tr t tr (t + 1) = .ok (x tr (t + 1) - x tr t) := by
          unfold getDiff
          rw [hx tr _ e2, ok_bind, hx tr _ e1, ok_bind, pure_eq_ok]
        rw [List.foldlM_cons, hd, ok_bind, pure_eq_ok, ok_bind,
          ih (d0 + (x tr (t + 1) - x tr t)) (fun tr' h => hm tr' (by simp [h]))]
        congr 1
        funext a
        simp only [List.map_cons, List.sum_cons, Pi.add_apply, Pi.sub_apply]
        ring
    by_cases h2 : l.length < 2
    · refine ⟨(t, 0), by rw [l1, ok_bind]; unfold getDriftOf; rw [if_pos h2]; rfl, rfl, ?_⟩
      intro sel hn hm
      have := (hperm sel hn hm).length_eq
      exact ⟨fun h => by omega, fun _ => rfl⟩
    · refine ⟨(t, fun a => (0 + (l.map fun tr => x tr (t + 1) a - x tr t a).sum) / (l.length : G)), ?_, rfl, ?_⟩
      · rw [l1, ok_bind]
        unfold getDriftOf
        rw [if_neg h2, hfold l 0 (fun _ h => h)]
        rfl
      · intro sel hn hm
        have hp := hperm sel hn hm
        have hlen := hp.length_eq
        refine ⟨fun _ a => ?_, fun h => by omega⟩
        have hne : (l.length : G) ≠ 0 := by
          have : l.length ≠ 0 := by omega
          exact_mod_cast this
        rw [hlen, (hp.map fun tr => x tr (t + 1) a - x tr t a).sum_eq]
        show (0 + _) / _ * _ = _
        rw [zero_add, div_mul_cancel₀ _ hne])
  refine ⟨rows, ?_, by simpa using k2, ?_⟩
  · unfold driftProgram
    rw [if_neg (by omega)]
    exact k1
  · intro t row hrow
    have ht : t < D.positions.length - 1 := by
      have := (List.getElem?_eq_some_iff.1 hrow).1
      simpa [k2] using this
    exact k3 t t row (by simp [ht]) hrow

/-! ## Films that meet the hypotheses -/

/-- The positions of a film that are defined. -/
theorem places_exist {D D' : DynParts G} (hw : Wf D') (h : D'.trajectories = D.trajectories) :
    ∃ x : Nat → Nat → Coord G, ∀ tr t, Dyn.Exists D tr t → at_ D' tr t = .ok (x tr t) := by
  classical
  refine ⟨fun tr t => if h : ∃ y, at_ D' tr t = .ok y then h.choose else 0, ?_⟩
  intro tr t he
  have he' : Dyn.Exists D' tr t := by unfold Dyn.Exists at he ⊢; rw [h]; exact he
  have h := (at_ok hw).1 he'
  show at_ D' tr t = .ok (if h : ∃ y, at_ D' tr t = .ok y then h.choose else 0)
  rw [dif_pos h]
  exact h.choose_spec

/-- MSD on `exTwo` for the whole film, then for the first two frames averaged, with a number in excess: two files. -/
example : ∃ D', removeDrift exTwo = .ok D' ∧ (msdProgram exTwo 1 [0, 2, 0, 0, 1, 1, 7]).status = none ∧
    (msdProgram exTwo 1 [0, 2, 0, 0, 1, 1, 7]).files.length = 2 := by
  obtain ⟨v, D', h1, -⟩ := C41_removeDrift_partial exTwo_wf rfl
  obtain ⟨g1, -, -, g3, -⟩ := drift_film exTwo_wf rfl h1
  obtain ⟨x, hx⟩ := places_exist g1 g3
  obtain ⟨k1, k2, -⟩ := C139_msd_partial exTwo_wf rfl (by simp [exTwo]) h1 (L := 3) (by decide) hx 1
    [(0, 2, 0), (0, 1, 1)] (by
      intro r hr
      simp only [List.mem_cons, List.not_mem_nil, or_false] at hr
      rcases hr with rfl | rfl <;> exact ⟨by simp, by simp [exTwo], by simp⟩) (rest := [7]) (by simp)
  exact ⟨D', h1, k1, k2⟩

/-- The counterexamples on `exTwo`, that has three frames. -/
example : (∃ f, msdProgram exTwo 1 [1, 1, 1] = ⟨[f], none⟩ ∧ ∀ y ∈ f.rows, y.2 = none) ∧
    msdProgram exTwo 1 [-1, 1, 0] = ⟨[], some .ub⟩ ∧ msdProgram exTwo 1 [1, 0, 0] = ⟨[], some .ub⟩ ∧
    msdProgram exTwo 1 [2, 0, 0] = ⟨[], some .invalidArgument⟩ ∧
    msdProgram exTwo 1 [0, 2, 1] = ⟨[], some .invalidArgument⟩ := by
  obtain ⟨v, D', h1, -⟩ := C41_removeDrift_partial exTwo_wf rfl
  have hL : exTwo.trajectories.longestSpan = .ok 3 := by decide
  have hn : exTwo.positions.length = 3 := by simp [exTwo]
  refine ⟨?_, ?_, ?_, ?_, ?_⟩
  · obtain ⟨f, k1, -, k3⟩ := C139_msd_average_counterexample exTwo_wf rfl (by omega) h1 hL 1 (r := (1, 1, 1))
      ⟨by simp, by simp [exTwo], by simp⟩ (by simp) (by simp)
    exact ⟨f, k1, k3⟩
  · exact C139_msd_negative_counterexample exTwo_wf rfl (by omega) h1 hL 1 (stop := 1) (by omega) (by omega)
  · exact (C139_msd_reversed_counterexample exTwo_wf rfl (by omega) h1 hL (by omega) 1 (start := 1) (stop := 0) (by omega)
      (by omega)).1 rfl ⟨0, by simp [Dyn.Exists, exTwo], by simp [Dyn.Exists, exTwo]⟩
  · exact (C139_msd_reversed_counterexample exTwo_wf rfl (by omega) h1 hL (by omega) 1 (start := 2) (stop := 0) (by omega)
      (by omega)).2 (by omega)
  · exact C139_msd_refused exTwo_wf rfl h1 1 [] (fs := []) (by unfold msdProgram; rw [h1]; rfl) (r := (0, 2, 1))
      (by simp) (by simp) (by simp) (by simp [exTwo]) []

/-- ISF and dynamics on `exMove`. -/
example : ∃ f, isfProgram exMove 1 [0, 2, 1] = ⟨[f], none⟩ ∧ f.rows.length = 2 ∧
    isfProgram exMove 1 [0, 2, 0] = ⟨[], some .ub⟩ ∧ dynamicsProgram exMove 2 = .error .ub := by
  obtain ⟨v, D', h1, -⟩ := C41_removeDrift_partial exMove_wf rfl
  obtain ⟨g1, -, -, g3, -⟩ := drift_film exMove_wf rfl h1
  obtain ⟨x, hx⟩ := places_exist g1 g3
  have hL : exMove.trajectories.longestSpan = .ok 4 := by decide
  have hn : exMove.positions.length = 4 := by simp [exMove]
  have hA : ∀ c ≤ 1, Asked exMove.positions.length 4 (0, 2, c) := fun c hc => ⟨by simp, by rw [hn]; simp; omega, by simp⟩
  obtain ⟨k1, k2, k3⟩ := C139_isf_partial exMove_wf rfl (by omega) h1 hL hx 1 [(0, 2, 1)] (fun _ _ => [0]) (by
    intro r hr
    simp only [List.mem_cons, List.not_mem_nil, or_false] at hr
    subst hr
    exact ⟨hA 1 le_rfl, by simp, by simp, fun s _ hs => ⟨exMove_spanning _ (by simp only at hs ⊢; omega) _ (by omega), by simp⟩⟩)
    (rest := []) (by simp)
  match isfProgram exMove 1 (argsOf [(0, 2, 1)] ++ []), k1, k2, k3 with
  | ⟨[f], _⟩, k1, _, k3 =>
    simp only at k1
    subst k1
    exact ⟨f, rfl, (k3 0 _ f rfl rfl).2.1,
      C139_isf_greedy_counterexample exMove_wf rfl (by omega) h1 hL 1 (hA 0 (by omega)),
      C139_dynamics_counterexample exMove_wf rfl (by simp [exMove]) (by omega) (by omega)⟩

/-- The drift of `exTwo`: a row for the two first times. -/
example : ∃ rows, driftProgram exTwo = .ok rows ∧ rows.length = 2 := by
  obtain ⟨x, hx⟩ := places_exist exTwo_wf (D := exTwo) rfl
  obtain ⟨rows, h1, h2, -⟩ := C140_drift exTwo_wf rfl (by simp [exTwo]) hx
  exact ⟨rows, h1, h2⟩

end Mains
end Colloids
