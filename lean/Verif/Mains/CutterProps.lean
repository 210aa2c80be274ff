import Verif.Mains.CutterModel
import Verif.Particles.Props
import Verif.Dat.Props
import Verif.Files.Props

/-! # C142: the program `cutter` -/

namespace Colloids
namespace Mains

open Files (Name isDig)

variable {G : Type} [Field G] [LinearOrder G] [IsStrictOrderedRing G]

/-- `out` is `pos` without the particles that have another one nearer than `sep` before them in the result. -/
def KeepsFirst (sep : G) (pos out : List (Coord G)) : Prop :=
  ∃ K : List Nat, K.Pairwise (· < ·) ∧ out.map some = K.map (fun i => pos[i]?) ∧
    (∀ i ∈ K, ∀ j ∈ K, i ≠ j → ∀ x y, pos[i]? = some x → pos[j]? = some y → ¬ NearerThan x y sep) ∧
    ∀ i x, pos[i]? = some x → i ∉ K → ∃ j ∈ K, j < i ∧ ∃ y, pos[j]? = some y ∧ NearerThan x y sep

/-- `out` is `pos` without the particles that have another one nearer than `sep`. -/
def KeepsIsolated (sep : G) (pos out : List (Coord G)) : Prop :=
  ∃ K : List Nat, K.Pairwise (· < ·) ∧ out.map some = K.map (fun i => pos[i]?) ∧
    ∀ i, i ∈ K ↔ ∃ x, pos[i]? = some x ∧ ∀ j y, pos[j]? = some y → j ≠ i → ¬ NearerThan x y sep

/-- What the program promises for one file. -/
def Kept (both : Bool) (sep : G) (pos out : List (Coord G)) : Prop :=
  if both then KeepsIsolated sep pos out else KeepsFirst sep pos out

/-- The file can be read, and printing does not change its numbers. -/
def Printed (round : G → G) (junk : Coord G) (file : Option (List (Dat.Num G))) : Prop :=
  ∃ i, Dat.ofDat junk file 1 = .ok i ∧ (∀ x ∈ i.pos, ∀ a, round (x a) = x a) ∧ ∀ a, round (i.bb.hi a) = i.bb.hi a

/-- The file `out` contains the particles of `file` that must be kept, and the same box. -/
def CutOf (junk : Coord G) (both : Bool) (sep : G) (file out : Option (List (Dat.Num G))) : Prop :=
  ∃ i o, Dat.ofDat junk file 1 = .ok i ∧ Dat.ofDat junk out 1 = .ok o ∧ Kept both sep i.pos o.pos ∧ o.bb = i.bb

omit [IsStrictOrderedRing G] in
theorem reread {round : G → G} {junk : Coord G} {i out : Particles G} (hpos : ∀ x ∈ out.pos, x ∈ i.pos) (hbb : out.bb = i.bb)
    (hlo : ∀ a, i.bb.lo a = 0) (hr : ∀ x ∈ i.pos, ∀ a, round (x a) = x a) (hb : ∀ a, round (i.bb.hi a) = i.bb.hi a) :
    ∃ o, Dat.ofDat junk (some (Dat.exportToFile round out)) 1 = .ok o ∧ o.pos = out.pos ∧ o.bb = i.bb := by
  obtain ⟨o, h1, h2, h3, h4, h5, -⟩ := Dat.C40_round_trip_partial round junk out 1
  refine ⟨o, h1, ?_, ?_⟩
  · refine List.ext_getElem? (fun k => ?_)
    by_cases hk : k < out.pos.length
    · have hx : out.pos[k]? = some out.pos[k] := by simp
      obtain ⟨y, hy, hyx⟩ := h3 k _ hx
      rw [hy, hx]
      congr 1
      funext a
      rw [hyx a, hr _ (hpos _ (List.getElem_mem hk))]
    · rw [List.getElem?_eq_none (by omega), List.getElem?_eq_none (by omega)]
  · have e1 : o.bb.hi = i.bb.hi := by
      funext a
      rw [h4 a, hbb, hb a]
    have e2 : o.bb.lo = i.bb.lo := by
      funext a
      rw [h5 a, hlo a]
    cases ho : o.bb
    cases hi : i.bb
    rw [ho, hi] at e1 e2
    simp only at e1 e2
    rw [e1, e2]

omit [Field G] [LinearOrder G] [IsStrictOrderedRing G] in
theorem kept_mem {pos out : List (Coord G)} {K : List Nat} (h : out.map some = K.map (fun i => pos[i]?)) : ∀ x ∈ out, x ∈ pos := by
  intro x hx
  have : some x ∈ out.map some := List.mem_map.2 ⟨x, hx, rfl⟩
  rw [h] at this
  obtain ⟨i, -, hi⟩ := List.mem_map.1 this
  exact List.mem_of_getElem? hi

/-- One file. -/
theorem cutFile_ok {P : RParams G} {H : Heur 3 G} (hP : P.Valid) (hH : H.Valid P) {round : G → G} {junk : Coord G} (both : Bool)
    (sep : G) {file : Option (List (Dat.Num G))} (h : Printed round junk file) :
    ∃ out, cutFile P H round junk both sep file = .ok out ∧ CutOf junk both sep file (some out) := by
  obtain ⟨i, h1, h2, h3⟩ := h
  have hlo : ∀ a, i.bb.lo a = 0 := by
    cases file with
    | none => cases h1
    | some l => cases h1; intro a; rfl
  cases both with
  | false =>
    obtain ⟨out, K, k1, -, k2, k3, k4, k5, k6⟩ := C22_cut hP hH i sep
    obtain ⟨o, o1, o2, o3⟩ := reread (junk := junk) (kept_mem k4) k2 hlo h2 h3
    refine ⟨_, ?_, i, o, h1, o1, ?_, o3⟩
    · unfold cutFile
      rw [h1, ok_bind, if_neg Bool.false_ne_true, k1, ok_bind, pure_eq_ok]
    · unfold Kept
      rw [if_neg Bool.false_ne_true, o2]
      exact ⟨K, k3, k4, k5, k6⟩
  | true =>
    obtain ⟨i', j1, -, j2, j3, -⟩ := Particles.makeRTreeIndex_ok hP hH i
    obtain ⟨out, K, k1, k2, k3, k4, k5⟩ := C23_remove hP hH (.make j1) sep
    rw [j2] at k4 k5
    rw [j3] at k2
    obtain ⟨o, o1, o2, o3⟩ := reread (junk := junk) (kept_mem k4) k2 hlo h2 h3
    refine ⟨_, ?_, i, o, h1, o1, ?_, o3⟩
    · unfold cutFile
      rw [h1, ok_bind, if_pos rfl, j1, ok_bind, k1, ok_bind, pure_eq_ok]
    · unfold Kept
      rw [if_pos rfl, o2]
      exact ⟨K, k3, k4, k5⟩

/-! ### Series -/

omit [Field G] [LinearOrder G] [IsStrictOrderedRing G] in
theorem cutLoop_append (work : Option (List (Dat.Num G)) → R (List (Dat.Num G))) (inName outName : Nat → R (List Char)) (l l' : List Nat)
    (disk disk' : Disk G) (h : cutLoop work inName outName l disk = (disk', .ok ())) :
    cutLoop work inName outName (l ++ l') disk = cutLoop work inName outName l' disk' := by
  induction l generalizing disk with
  | nil => cases h; rfl
  | cons t l ih =>
    rw [List.cons_append]
    simp only [cutLoop] at h ⊢
    split at h
    · cases h
    · rename_i b out heq
      exact ih _ h

omit [Field G] [LinearOrder G] [IsStrictOrderedRing G] in
/-- The loop, when a name of output is never the name of a later input. -/
theorem cutLoop_ok {work : Option (List (Dat.Num G)) → R (List (Dat.Num G))} {inName outName : Nat → R (List Char)}
    {a b : Nat → List Char} (ha : ∀ t, inName t = .ok (a t)) (hb : ∀ t, outName t = .ok (b t))
    (hab : ∀ t u, b t = a u → t = u) (hbb : ∀ t u, b t = b u → t = u) (disk : Disk G) (out : Nat → List (Dat.Num G)) :
    ∀ n, (∀ t < n, work (disk (a t)) = .ok (out t)) →
    ∃ disk', cutLoop work inName outName (List.range n) disk = (disk', .ok ()) ∧ (∀ t < n, disk' (b t) = some (out t)) ∧
      ∀ name, (∀ t < n, name ≠ b t) → disk' name = disk name := by
  intro n
  induction n with
  | zero => exact fun _ => ⟨disk, rfl, fun t h => absurd h (by omega), fun _ _ => rfl⟩
  | succ n ih =>
    intro h
    obtain ⟨d, h1, h2, h3⟩ := ih (fun t ht => h t (by omega))
    refine ⟨Function.update d (b n) (some (out n)), ?_, ?_, ?_⟩
    · rw [List.range_succ, cutLoop_append _ _ _ _ _ _ _ h1]
      have e : d (a n) = disk (a n) := h3 _ (fun t ht e => by have := hab t n e.symm; omega)
      unfold cutLoop
      simp only [ha, hb, ok_bind, e, h n (by omega), pure_eq_ok]
      rfl
    · intro t ht
      by_cases e : t = n
      · subst e; simp
      · rw [Function.update_of_ne (fun e' => e (hbb _ _ e'))]
        exact h2 t (by omega)
    · intro name hn
      rw [Function.update_of_ne (hn n (by omega))]
      exact h3 name (fun t ht => hn t (by omega))

/-- The digits of the two names are the same when the names are. -/
theorem digits_tail {m m' s s' : List Char} (hm : ∀ c ∈ m, isDig c = true) (hm' : ∀ c ∈ m', isDig c = true)
    (hs : ∃ c r, s = c :: r ∧ isDig c = false) (hs' : ∃ c r, s' = c :: r ∧ isDig c = false) (h : m ++ s = m' ++ s') : m = m' := by
  obtain ⟨c, r, rfl, hc⟩ := hs
  obtain ⟨c', r', rfl, hc'⟩ := hs'
  have t1 : ∀ (m r : List Char) c, (∀ c ∈ m, isDig c = true) → isDig c = false → (m ++ c :: r).takeWhile isDig = m := by
    intro m r c hm hc
    induction m with
    | nil => simp [hc]
    | cons d m ih => simp [hm d (by simp), ih (fun c h => hm c (by simp [h]))]
  rw [← t1 m r c hm hc, h, t1 m' r' c' hm' hc']

theorem last_token {h tok m t : List Char} (hne : tok ≠ []) (htok : ∀ c ∈ tok, isDig c = false) (hm : ∀ c ∈ m, isDig c = true)
    (hm0 : m ≠ []) (ht : ¬ tok <:+: t) : Files.rfind (h ++ tok ++ (m ++ t)) tok = some h.length := by
  refine Files.rfind_last h tok _ ?_
  cases tok with
  | nil => exact absurd rfl hne
  | cons e tok =>
    have : (h ++ e :: tok ++ (m ++ t)).drop (h.length + 1) = tok ++ m ++ t := by
      have h1 := List.drop_left (l₁ := h ++ [e]) (l₂ := tok ++ m ++ t)
      simpa using h1
    rw [this]
    intro hi
    rcases Files.infix_around_list (e :: tok) tok m t hm0
      (fun c hc hc' => by have := hm c hc; rw [htok c hc'] at this; cases this) hi with hi | hi
    · have := hi.length_le; simp at this
    · exact ht hi

/-- The extension of the files that are written. -/
def datExt : List Char := ['.', 'd', 'a', 't']

/-- The names of the two series. -/
theorem names_ok {h tok d stem e post : List Char} (hn : Name h tok d (stem ++ '.' :: e)) (he : '.' ∉ e)
    (htok : ∀ c ∈ tok, isDig c = false) (hpo : '%' ∉ post) (hnew : ¬ tok <:+: stem ++ datExt) (n offset : Nat) :
    ∃ f g, Files.make (h ++ tok ++ d ++ (stem ++ '.' :: e)) tok n offset = .ok f ∧ f.addPostfixExt post datExt = .ok g ∧
      ∃ m : Nat → List Char, (∀ t, f.name t = .ok (h ++ tok ++ m t ++ (stem ++ '.' :: e))) ∧
        (∀ t, g.name t = .ok (h ++ post ++ tok ++ m t ++ (stem ++ datExt))) ∧
        (∀ t, ∀ c ∈ m t, isDig c = true) ∧ (∀ t, Files.value (m t) = t + offset) ∧ (∀ t, m t ≠ []) ∧
        ∃ c r, stem ++ datExt = c :: r ∧ isDig c = false := by
  have h1 := hn.make n offset
  have hext : ∃ c r, stem ++ datExt = c :: r ∧ isDig c = false := by
    obtain ⟨c, r, h3, h4⟩ := hn.tail
    cases stem with
    | nil => exact ⟨'.', ['d', 'a', 't'], rfl, by decide⟩
    | cons x stem =>
      rw [List.cons_append] at h3
      injection h3 with h5 h6
      subst h5
      exact ⟨x, _, rfl, h4⟩
  obtain ⟨g, g1, -, -, g2⟩ := Files.C39_postfix_extension_partial hn he
    (fun h0 => by have := htok _ h0; exact absurd this (by decide)) n offset post datExt hpo (by decide) hext hnew _ h1
  have h3 : ∀ t, Files.FileSerie.name ⟨Files.patternOf h tok d.length (stem ++ '.' :: e), tok, n, offset⟩ t =
      .ok (h ++ tok ++ Files.pad d.length (t + offset) ++ (stem ++ '.' :: e)) := fun t => Files.render_pattern _ _ _ _ _
  refine ⟨_, g, h1, g1, fun t => Files.pad d.length (t + offset), h3, ?_, fun t => Files.pad_digits _ _, fun t => Files.value_pad _ _,
    fun t => Files.pad_ne_nil _ _, hext⟩
  intro t
  obtain ⟨m', k1, k2⟩ := g2 t
  rw [h3 t] at k1
  have k1 := Except.ok.inj k1
  have : Files.pad d.length (t + offset) = m' := List.append_cancel_left (List.append_cancel_right k1)
  rw [← this] at k2
  exact k2

theorem names_apart {h tok stem e post : List Char} {m : Nat → List Char} {offset : Nat} (hne : tok ≠ [])
    (htok : ∀ c ∈ tok, isDig c = false) (hm : ∀ t, ∀ c ∈ m t, isDig c = true)
    (hv : ∀ t, Files.value (m t) = t + offset) (hm0 : ∀ t, m t ≠ []) (ht : ¬ tok <:+: stem ++ e) (hnew : ¬ tok <:+: stem ++ datExt)
    (hs : ∃ c r, stem ++ e = c :: r ∧ isDig c = false) (hs' : ∃ c r, stem ++ datExt = c :: r ∧ isDig c = false) (t u : Nat)
    (heq : h ++ post ++ tok ++ m t ++ (stem ++ datExt) = h ++ tok ++ m u ++ (stem ++ e)) : t = u := by
  have r1 := last_token (h := h ++ post) hne htok (hm t) (hm0 t) hnew
  have r2 := last_token (h := h) hne htok (hm u) (hm0 u) ht
  rw [List.append_assoc (h ++ post ++ tok), List.append_assoc (h ++ tok)] at heq
  rw [heq, r2] at r1
  have hl := Option.some.inj r1
  have hp : post = [] := by
    rw [List.length_append] at hl
    exact List.length_eq_zero_iff.1 (by omega)
  subst hp
  rw [List.append_nil] at heq
  have h1 := digits_tail (hm t) (hm u) hs' hs (List.append_cancel_left heq)
  have h2 := hv t
  rw [h1, hv u] at h2
  omega

/-- C142. On a series of files, each file that is written contains the particles of the file of the same time, as it was before,
that must be kept; the other files are not changed. The numbers of the inputs are such that printing does not change them, as those printed by the library. -/
theorem C142_series_partial {P : RParams G} {H : Heur 3 G} (hP : P.Valid) (hH : H.Valid P) (round : G → G) (junk : Coord G) (junkSep sep : G)
    (both : Bool) {h tok d stem e post : List Char} (hn : Name h tok d (stem ++ '.' :: e)) (he : '.' ∉ e)
    (htok : ∀ c ∈ tok, isDig c = false) (hpo : '%' ∉ post) (hnew : ¬ tok <:+: stem ++ datExt) (n offset : Nat) (disk : Disk G)
    (hin : ∀ f t name, Files.make (h ++ tok ++ d ++ (stem ++ '.' :: e)) tok n offset = .ok f → t < n → f.name t = .ok name →
      Printed round junk (disk name)) :
    ∃ disk', cutter P H round junk junkSep ⟨h ++ tok ++ d ++ (stem ++ '.' :: e), some sep, tok, some n, offset, both, post⟩ disk =
        (disk', .ok ()) ∧
      ∃ m : Nat → List Char, (∀ t, ∀ c ∈ m t, isDig c = true) ∧ (∀ t, Files.value (m t) = t + offset) ∧
        (∀ t < n, CutOf junk both sep (disk (h ++ tok ++ m t ++ (stem ++ '.' :: e)))
          (disk' (h ++ post ++ tok ++ m t ++ (stem ++ datExt)))) ∧
        ∀ name, (∀ t < n, name ≠ h ++ post ++ tok ++ m t ++ (stem ++ datExt)) → disk' name = disk name := by
  obtain ⟨f, g, h1, h2, m, m1, m2, m3, m4, m5, m6⟩ := names_ok hn he htok hpo hnew n offset
  have hx : ∀ t < n, ∃ out, cutFile P H round junk both sep (disk (h ++ tok ++ m t ++ (stem ++ '.' :: e))) = .ok out ∧
      CutOf junk both sep (disk (h ++ tok ++ m t ++ (stem ++ '.' :: e))) (some out) := fun t ht =>
    cutFile_ok hP hH both sep (hin f t _ h1 ht (m1 t))
  classical
  let out : Nat → List (Dat.Num G) := fun t => if ht : t < n then (hx t ht).choose else []
  have hout : ∀ t (ht : t < n), out t = (hx t ht).choose := fun t ht => dif_pos ht
  obtain ⟨disk', d1, d2, d3⟩ := cutLoop_ok (work := cutFile P H round junk both sep) m1 m2
    (fun t u => names_apart hn.tok_ne htok m3 m4 m5 (Files.not_infix_tail hn.tok_ne hn.last) hnew hn.tail m6 t u)
    (by
      intro t u heq
      have := List.append_cancel_right heq
      have := List.append_cancel_left this
      have h5 := m4 t
      rw [this, m4 u] at h5
      omega) disk out n (by
      intro t ht
      rw [hout t ht]
      exact (hx t ht).choose_spec.1)
  refine ⟨disk', ?_, m, m3, m4, ?_, d3⟩
  · unfold cutter
    have h2' : f.addPostfixExt post ['.', 'd', 'a', 't'] = .ok g := h2
    simp only [h1, h2', ok_bind, pure_eq_ok]
    exact d1
  · intro t ht
    rw [d2 t ht, hout t ht]
    exact (hx t ht).choose_spec.2

/-- C142. On a single file, the file that is written contains the particles of the file, as it was before, that must be kept; the
other files are not changed. -/
theorem C142_single_partial {P : RParams G} {H : Heur 3 G} (hP : P.Valid) (hH : H.Valid P) (round : G → G) (junk : Coord G) (junkSep sep : G)
    (both : Bool) {stem e : List Char} (he : '.' ∉ e) (tok post : List Char) (offset : Nat) (disk : Disk G)
    (hin : Printed round junk (disk (stem ++ '.' :: e))) :
    ∃ disk', cutter P H round junk junkSep ⟨stem ++ '.' :: e, some sep, tok, none, offset, both, post⟩ disk = (disk', .ok ()) ∧
      CutOf junk both sep (disk (stem ++ '.' :: e)) (disk' (stem ++ post ++ datExt)) ∧
      ∀ name, name ≠ stem ++ post ++ datExt → disk' name = disk name := by
  obtain ⟨out, h1, h2⟩ := cutFile_ok hP hH both sep hin
  have hr : Files.replaceExt (stem ++ '.' :: e) (post ++ ['.', 'd', 'a', 't']) = stem ++ post ++ datExt := by
    have := Files.replaceExt_eq [] stem e (post ++ ['.', 'd', 'a', 't']) he
    rw [List.nil_append, List.nil_append] at this
    rw [this, List.append_assoc]
    rfl
  refine ⟨Function.update disk (stem ++ post ++ datExt) (some out), ?_, ?_, ?_⟩
  · unfold cutter
    simp only [cutLoop, hr, ok_bind, Option.getD_some, h1, pure_eq_ok]
  · rw [Function.update_self]
    exact h2
  · intro name hn
    rw [Function.update_of_ne hn]

omit [IsStrictOrderedRing G] in
theorem nearer_comm {x y : Coord G} {r : G} (h : NearerThan x y r) : NearerThan y x r := by
  refine ⟨h.1, ?_⟩
  have : sqDist y x = sqDist x y := by unfold sqDist; ring
  rw [this]
  exact h.2

omit [IsStrictOrderedRing G] in
/-- No two of the particles kept are nearer than `sep`. -/
theorem C142_apart (both : Bool) (sep : G) (pos out : List (Coord G)) (h : Kept both sep pos out) (i j : Nat) (x y : Coord G) (hij : i ≠ j)
    (hx : out[i]? = some x) (hy : out[j]? = some y) : ¬ NearerThan x y sep := by
  have key : ∀ K : List Nat, K.Pairwise (· < ·) → out.map some = K.map (fun i => pos[i]?) →
      ∃ a b, a ∈ K ∧ b ∈ K ∧ a ≠ b ∧ pos[a]? = some x ∧ pos[b]? = some y := by
    intro K hK hm
    have e1 := congrArg (fun l => l[i]?) hm
    have e2 := congrArg (fun l => l[j]?) hm
    simp only [List.getElem?_map, hx, hy, Option.map_some] at e1 e2
    obtain ⟨a, a1, a2⟩ := Option.map_eq_some_iff.1 e1.symm
    obtain ⟨b, b1, b2⟩ := Option.map_eq_some_iff.1 e2.symm
    refine ⟨a, b, List.mem_of_getElem? a1, List.mem_of_getElem? b1, ?_, a2, b2⟩
    intro hab
    subst hab
    obtain ⟨il, ia⟩ := List.getElem?_eq_some_iff.1 a1
    obtain ⟨jl, jb⟩ := List.getElem?_eq_some_iff.1 b1
    rcases Nat.lt_or_gt_of_ne hij with h | h
    · have := List.pairwise_iff_getElem.1 hK i j il jl h
      omega
    · have := List.pairwise_iff_getElem.1 hK j i jl il h
      omega
  unfold Kept at h
  cases both with
  | false =>
    rw [if_neg Bool.false_ne_true] at h
    obtain ⟨K, k1, k2, k3, -⟩ := h
    obtain ⟨a, b, ha, hb, hab, h1, h2⟩ := key K k1 k2
    exact k3 a ha b hb hab x y h1 h2
  | true =>
    rw [if_pos rfl] at h
    obtain ⟨K, k1, k2, k3⟩ := h
    obtain ⟨a, b, ha, hb, hab, h1, h2⟩ := key K k1 k2
    obtain ⟨x', hx', hk⟩ := (k3 a).1 ha
    rw [h1] at hx'
    cases hx'
    exact hk b y h2 (fun e => hab e.symm)

omit [Field G] [LinearOrder G] [IsStrictOrderedRing G] in
theorem all_kept {pos out : List (Coord G)} {K : List Nat} (hK : K.Pairwise (· < ·)) (hm : out.map some = K.map (fun i => pos[i]?))
    (hall : ∀ i, i < pos.length → i ∈ K) : out = pos := by
  have hlt : ∀ i ∈ K, i < pos.length := by
    intro i hi
    have : pos[i]? ∈ out.map some := by
      rw [hm]
      exact List.mem_map.2 ⟨i, hi, rfl⟩
    obtain ⟨x, -, hx⟩ := List.mem_map.1 this
    exact (List.getElem?_eq_some_iff.1 hx.symm).1
  have : K = List.range pos.length := by
    refine sortedLT_ext hK List.pairwise_lt_range (fun i => ?_)
    rw [List.mem_range]
    exact ⟨hlt i, hall i⟩
  rw [this] at hm
  have e : (List.range pos.length).map (fun i => pos[i]?) = pos.map some := by
    refine List.ext_getElem? (fun i => ?_)
    by_cases h : i < pos.length
    · simp [h]
    · simp [h]
  rw [e] at hm
  exact (List.map_injective_iff.2 (Option.some_injective _)) hm

omit [IsStrictOrderedRing G] in
/-- C142. Cutting again with the same separation removes nothing. -/
theorem C142_again (both both' : Bool) (sep : G) (pos out out' : List (Coord G)) (h : Kept both sep pos out) (h' : Kept both' sep out out') :
    out' = out := by
  have ha := C142_apart both sep pos out h
  unfold Kept at h'
  cases both' with
  | false =>
    rw [if_neg Bool.false_ne_true] at h'
    obtain ⟨K, k1, k2, -, k3⟩ := h'
    refine all_kept k1 k2 (fun i hi => ?_)
    by_contra hn
    have hx : out[i]? = some out[i] := by simp
    obtain ⟨j, -, hji, y, hy, hyx⟩ := k3 i _ hx hn
    exact ha i j _ y (by omega) hx hy hyx
  | true =>
    rw [if_pos rfl] at h'
    obtain ⟨K, k1, k2, k3⟩ := h'
    refine all_kept k1 k2 (fun i hi => (k3 i).2 ?_)
    have hx : out[i]? = some out[i] := by simp
    exact ⟨_, hx, fun j y hy hji => ha i j _ y (fun e => hji e.symm) hx hy⟩

/-- C142. A missing file stops the program with an error; the files of the previous times have been written, the others have not been changed. -/
theorem C142_missing {P : RParams G} {H : Heur 3 G} (hP : P.Valid) (hH : H.Valid P) (round : G → G) (junk : Coord G) (junkSep sep : G)
    (both : Bool) {h tok d stem e post : List Char} (hn : Name h tok d (stem ++ '.' :: e)) (he : '.' ∉ e)
    (htok : ∀ c ∈ tok, isDig c = false) (hpo : '%' ∉ post) (hnew : ¬ tok <:+: stem ++ datExt) (n offset k : Nat) (hk : k < n) (disk : Disk G)
    (hin : ∀ f t name, Files.make (h ++ tok ++ d ++ (stem ++ '.' :: e)) tok n offset = .ok f → t < k → f.name t = .ok name →
      Printed round junk (disk name))
    (hmiss : ∀ f name, Files.make (h ++ tok ++ d ++ (stem ++ '.' :: e)) tok n offset = .ok f → f.name k = .ok name → disk name = none) :
    ∃ disk', cutter P H round junk junkSep ⟨h ++ tok ++ d ++ (stem ++ '.' :: e), some sep, tok, some n, offset, both, post⟩ disk =
        (disk', .error .invalidArgument) ∧
      ∃ m : Nat → List Char, (∀ t, ∀ c ∈ m t, isDig c = true) ∧ (∀ t, Files.value (m t) = t + offset) ∧
        (∀ t < k, CutOf junk both sep (disk (h ++ tok ++ m t ++ (stem ++ '.' :: e)))
          (disk' (h ++ post ++ tok ++ m t ++ (stem ++ datExt)))) ∧
        ∀ name, (∀ t < k, name ≠ h ++ post ++ tok ++ m t ++ (stem ++ datExt)) → disk' name = disk name := by
  obtain ⟨f, g, h1, h2, m, m1, m2, m3, m4, m5, m6⟩ := names_ok hn he htok hpo hnew n offset
  have hx : ∀ t < k, ∃ out, cutFile P H round junk both sep (disk (h ++ tok ++ m t ++ (stem ++ '.' :: e))) = .ok out ∧
      CutOf junk both sep (disk (h ++ tok ++ m t ++ (stem ++ '.' :: e))) (some out) := fun t ht =>
    cutFile_ok hP hH both sep (hin f t _ h1 ht (m1 t))
  have hab := names_apart (h := h) (post := post) hn.tok_ne htok m3 m4 m5 (Files.not_infix_tail hn.tok_ne hn.last) hnew hn.tail m6
  classical
  let out : Nat → List (Dat.Num G) := fun t => if ht : t < k then (hx t ht).choose else []
  have hout : ∀ t (ht : t < k), out t = (hx t ht).choose := fun t ht => dif_pos ht
  obtain ⟨disk', d1, d2, d3⟩ := cutLoop_ok (work := cutFile P H round junk both sep) m1 m2 hab
    (by
      intro t u heq
      have := List.append_cancel_right heq
      have := List.append_cancel_left this
      have h5 := m4 t
      rw [this, m4 u] at h5
      omega) disk out k (by
      intro t ht
      rw [hout t ht]
      exact (hx t ht).choose_spec.1)
  have hend : disk' (h ++ tok ++ m k ++ (stem ++ '.' :: e)) = none := by
    rw [d3 _ (fun t ht e => by have := hab t k e.symm; omega), hmiss f _ h1 (m1 k)]
  refine ⟨disk', ?_, m, m3, m4, ?_, d3⟩
  · unfold cutter
    have h2' : f.addPostfixExt post ['.', 'd', 'a', 't'] = .ok g := h2
    simp only [h1, h2', ok_bind, pure_eq_ok, Option.getD_some]
    have hr : List.range n = List.range k ++ k :: (List.range' (k + 1) (n - k - 1)) := by
      rw [List.range_eq_range', List.range_eq_range', ← List.range'_succ]
      have := List.range'_append (s := 0) (m := k) (n := n - k - 1 + 1) (step := 1)
      rw [show 0 + 1 * k = k by omega] at this
      rw [this]
      congr 1
      omega
    rw [hr, cutLoop_append _ _ _ _ _ _ _ d1]
    have hw : cutFile P H round junk both sep none = .error .invalidArgument := rfl
    simp only [cutLoop, m1, ok_bind, hend, Option.getD_some, hw, error_bind]
  · intro t ht
    rw [d2 t ht, hout t ht]
    exact (hx t ht).choose_spec.2

omit [IsStrictOrderedRing G] in
theorem kept_all {both : Bool} {sep : G} {pos out : List (Coord G)} (h : Kept both sep pos out)
    (ha : ∀ (i j : Nat) x y, i ≠ j → pos[i]? = some x → pos[j]? = some y → ¬ NearerThan x y sep) : out = pos := by
  unfold Kept at h
  cases both with
  | false =>
    rw [if_neg Bool.false_ne_true] at h
    obtain ⟨K, k1, k2, -, k3⟩ := h
    refine all_kept k1 k2 (fun i hi => ?_)
    by_contra hn
    have hx : pos[i]? = some pos[i] := by simp
    obtain ⟨j, -, hji, y, hy, hyx⟩ := k3 i _ hx hn
    exact ha i j _ y (by omega) hx hy hyx
  | true =>
    rw [if_pos rfl] at h
    obtain ⟨K, k1, k2, k3⟩ := h
    refine all_kept k1 k2 (fun i hi => (k3 i).2 ?_)
    have hx : pos[i]? = some pos[i] := by simp
    exact ⟨_, hx, fun j y hy hji => ha i j _ y (fun e => hji e.symm) hx hy⟩

/-- C142 does not hold without `minSep`: the test of the command line lets it pass, and what is written depends on what was in the memory.
With 0 the file is copied, with another value some particles are lost; with an empty postfix the input is replaced. -/
theorem C142_no_minSep_counterexample {P : RParams G} {H : Heur 3 G} (hP : P.Valid) (hH : H.Valid P) (round : G → G) (junk : Coord G)
    (both : Bool) {stem e : List Char} (he : '.' ∉ e) (tok post : List Char) (offset : Nat) (disk : Disk G)
    (hin : Printed round junk (disk (stem ++ '.' :: e))) (i : Particles G) (hi : Dat.ofDat junk (disk (stem ++ '.' :: e)) 1 = .ok i)
    (x y : Coord G) (a b : Nat) (hab : a ≠ b) (hx : i.pos[a]? = some x) (hy : i.pos[b]? = some y) (s : G) (hs : NearerThan x y s) :
    (∃ disk' o, cutter P H round junk 0 ⟨stem ++ '.' :: e, none, tok, none, offset, both, post⟩ disk = (disk', .ok ()) ∧
      Dat.ofDat junk (disk' (stem ++ post ++ datExt)) 1 = .ok o ∧ o.pos = i.pos) ∧
    ∃ disk' o, cutter P H round junk s ⟨stem ++ '.' :: e, none, tok, none, offset, both, post⟩ disk = (disk', .ok ()) ∧
      Dat.ofDat junk (disk' (stem ++ post ++ datExt)) 1 = .ok o ∧ o.pos ≠ i.pos := by
  constructor
  · obtain ⟨disk', h1, ⟨i', o, h2, h3, h4, -⟩, -⟩ := C142_single_partial hP hH round junk 0 0 both he tok post offset disk hin
    rw [hi] at h2
    cases h2
    exact ⟨disk', o, h1, h3, kept_all h4 (fun _ _ _ _ _ _ _ hn => absurd hn.1 (lt_irrefl _))⟩
  · obtain ⟨disk', h1, ⟨i', o, h2, h3, h4, -⟩, -⟩ := C142_single_partial hP hH round junk s s both he tok post offset disk hin
    rw [hi] at h2
    cases h2
    refine ⟨disk', o, h1, h3, fun heq => ?_⟩
    rw [← heq] at hx hy
    exact C142_apart both s _ _ h4 a b x y hab hx hy hs

/-- C142 does not hold for coordinates with more digits than are printed: two particles that are far enough, and that are printed at the same
place, are both kept. -/
theorem C142_rounding_counterexample {P : RParams G} {H : Heur 3 G} (hP : P.Valid) (hH : H.Valid P) (round : G → G) (junk : Coord G) (junkSep sep : G)
    (hsep : 0 < sep) {stem e : List Char} (he : '.' ∉ e) (tok post : List Char) (offset : Nat) (disk : Disk G) (i : Particles G)
    (hi : Dat.ofDat junk (disk (stem ++ '.' :: e)) 1 = .ok i) (x y : Coord G) (hpos : i.pos = [x, y]) (hxy : ¬ NearerThan x y sep)
    (hr : ∀ a, round (x a) = round (y a)) :
    ∃ disk' o x' y', cutter P H round junk junkSep ⟨stem ++ '.' :: e, some sep, tok, none, offset, false, post⟩ disk = (disk', .ok ()) ∧
      Dat.ofDat junk (disk' (stem ++ post ++ datExt)) 1 = .ok o ∧ o.pos = [x', y'] ∧ NearerThan x' y' sep := by
  obtain ⟨out, K, k1, -, k2, k3, k4, k5, k6⟩ := C22_cut hP hH i sep
  have hout : out.pos = i.pos := by
    refine kept_all (both := false) (sep := sep) (by unfold Kept; rw [if_neg Bool.false_ne_true]; exact ⟨K, k3, k4, k5, k6⟩) ?_
    rw [hpos]
    intro a b x' y' hab hx' hy' hn
    match a, b with
    | 0, 0 | 1, 1 => exact hab rfl
    | 0, 1 => cases hx'; cases hy'; exact hxy hn
    | 1, 0 => cases hx'; cases hy'; exact hxy (nearer_comm hn)
    | a + 2, _ => simp at hx'
    | 0, b + 2 | 1, b + 2 => simp at hy'
  have hw : cutFile P H round junk false sep (disk (stem ++ '.' :: e)) = .ok (Dat.exportToFile round out) := by
    unfold cutFile
    rw [hi, ok_bind, if_neg Bool.false_ne_true, k1, ok_bind, pure_eq_ok]
  have hre : Files.replaceExt (stem ++ '.' :: e) (post ++ ['.', 'd', 'a', 't']) = stem ++ post ++ datExt := by
    have := Files.replaceExt_eq [] stem e (post ++ ['.', 'd', 'a', 't']) he
    rw [List.nil_append, List.nil_append] at this
    rw [this, List.append_assoc]
    rfl
  obtain ⟨o, o1, o2, o3, -⟩ := Dat.C40_round_trip_partial round junk out 1
  rw [hout, hpos] at o2 o3
  obtain ⟨x', hx', hx2⟩ := o3 0 x rfl
  obtain ⟨y', hy', hy2⟩ := o3 1 y rfl
  refine ⟨Function.update disk (stem ++ post ++ datExt) (some (Dat.exportToFile round out)), o, x', y', ?_, ?_, ?_, hsep, ?_⟩
  · unfold cutter
    simp only [cutLoop, hre, ok_bind, Option.getD_some, hw, pure_eq_ok]
  · rw [Function.update_self]
    exact o1
  · match ho : o.pos, o2 with
    | [u, v], _ =>
      rw [ho] at hx' hy'
      cases hx'
      cases hy'
      rfl
  · have : x' = y' := by
      funext a
      rw [hx2 a, hy2 a, hr a]
    rw [this]
    unfold sqDist
    simp only [sub_self]
    have : 0 < sep ^ 2 := by positivity
    simpa using this

/-! ### Concrete cases -/

/-- A disk with the three particles (0, 0, 0), (1, 0, 0), (5, 0, 0) in the files of the times 7 and 8. -/
def exDisk : Disk ℚ := fun name =>
  if name = ['a', '_', 't', '7', '.', 'd', 'a', 't'] ∨ name = ['a', '_', 't', '8', '.', 'd', 'a', 't'] then
    some [.nat 1, .nat 3, .nat 1, .nat 9, .nat 9, .nat 9, .nat 0, .nat 0, .nat 0, .nat 1, .nat 0, .nat 0, .nat 5, .nat 0, .nat 0]
  else none

theorem exDisk_name : Name ['a'] ['_', 't'] ['0'] ([] ++ '.' :: ['d', 'a', 't']) := by
  refine ⟨by decide, ⟨_, _, rfl, by decide⟩, ?_, by decide, by decide, by decide⟩
  rw [← Files.rfind_none]
  decide +kernel

theorem exDisk_printed (f : Files.FileSerie) (t : Nat) (name : List Char)
    (hf : Files.make (['a'] ++ ['_', 't'] ++ ['0'] ++ ([] ++ '.' :: ['d', 'a', 't'])) ['_', 't'] 2 7 = .ok f) (ht : t < 2)
    (hn : f.name t = .ok name) : exDisk name ≠ none := by
  rw [exDisk_name.make 2 7] at hf
  cases hf
  match t, ht with
  | 0, _ =>
    have : name = ['a', '_', 't', '7', '.', 'd', 'a', 't'] := by
      have e : Files.FileSerie.name ⟨Files.patternOf ['a'] ['_', 't'] 1 ([] ++ '.' :: ['d', 'a', 't']), ['_', 't'], 2, 7⟩ 0 =
        .ok ['a', '_', 't', '7', '.', 'd', 'a', 't'] := by decide +kernel
      exact Except.ok.inj (hn.symm.trans e)
    subst this
    simp [exDisk]
  | 1, _ =>
    have : name = ['a', '_', 't', '8', '.', 'd', 'a', 't'] := by
      have e : Files.FileSerie.name ⟨Files.patternOf ['a'] ['_', 't'] 1 ([] ++ '.' :: ['d', 'a', 't']), ['_', 't'], 2, 7⟩ 1 =
        .ok ['a', '_', 't', '8', '.', 'd', 'a', 't'] := by decide +kernel
      exact Except.ok.inj (hn.symm.trans e)
    subst this
    simp [exDisk]

omit [IsStrictOrderedRing G] in
theorem printed_id {junk : Coord G} {file : Option (List (Dat.Num G))} (h : file ≠ none) : Printed id junk file := by
  obtain ⟨i, hi⟩ := (Dat.C40_missing junk file 1).2 h
  exact ⟨i, hi, fun _ _ _ => rfl, fun _ => rfl⟩

/-- The hypotheses of `C142_series_partial`, the files being replaced. -/
example : ∃ (P : RParams ℚ) (H : Heur 3 ℚ) (disk' : Disk ℚ),
    cutter P H id 0 0 ⟨['a'] ++ ['_', 't'] ++ ['0'] ++ ([] ++ '.' :: ['d', 'a', 't']), some 2, ['_', 't'], some 2, 7, false, []⟩ exDisk =
      (disk', .ok ()) := by
  have hP := stdParams_valid (1000 : ℚ) (1 / 1000)
  obtain ⟨disk', h, -⟩ := C142_series_partial hP (exHeur_valid (d := 3) hP) id 0 0 2 false exDisk_name (by decide) (by decide)
    (post := []) (by decide) (by rw [← Files.rfind_none]; decide +kernel) 2 7 exDisk
    (fun f t name h1 h2 h3 => printed_id (exDisk_printed f t name h1 h2 h3))
  exact ⟨_, _, disk', h⟩

/-- The hypotheses of `C142_no_minSep_counterexample`: the two first particles of the file of time 7 are nearer than 2. -/
example : ∃ i x y, Dat.ofDat (0 : Coord ℚ) (exDisk (['a', '_', 't', '7'] ++ '.' :: ['d', 'a', 't'])) 1 = .ok i ∧
    i.pos[0]? = some x ∧ i.pos[1]? = some y ∧ NearerThan x y 2 := by
  refine ⟨_, ![((0 : ℕ) : ℚ), ((0 : ℕ) : ℚ), ((0 : ℕ) : ℚ)], ![((1 : ℕ) : ℚ), ((0 : ℕ) : ℚ), ((0 : ℕ) : ℚ)], rfl, rfl, rfl, by norm_num, ?_⟩
  have : (![((0 : ℕ) : ℚ), ((0 : ℕ) : ℚ), ((0 : ℕ) : ℚ)] : Coord ℚ) 2 - (![((1 : ℕ) : ℚ), ((0 : ℕ) : ℚ), ((0 : ℕ) : ℚ)] : Coord ℚ) 2 = 0 :=
    sub_self ((0 : ℕ) : ℚ)
  unfold sqDist
  rw [this]
  norm_num

/-- The hypotheses of `C142_rounding_counterexample`: numbers printed with six digits. -/
example : ∃ (i : Particles ℚ) (x y : Coord ℚ), Dat.ofDat (0 : Coord ℚ) (some [.nat 1, .nat 2, .nat 1, .nat 9, .nat 9, .nat 9,
      .dbl (1000006 / 10), .nat 0, .nat 0, .dbl (1000014 / 10), .nat 0, .nat 0]) 1 = .ok i ∧ i.pos = [x, y] ∧
    ¬ NearerThan x y (7 / 10) ∧ ∀ a, ((⌊x a + 1 / 2⌋ : ℤ) : ℚ) = ((⌊y a + 1 / 2⌋ : ℤ) : ℚ) := by
  refine ⟨_, ![1000006 / 10, ((0 : ℕ) : ℚ), ((0 : ℕ) : ℚ)], ![1000014 / 10, ((0 : ℕ) : ℚ), ((0 : ℕ) : ℚ)], rfl, rfl, ?_, ?_⟩
  · rintro ⟨-, h⟩
    unfold sqDist at h
    have h0 := sq_nonneg ((![1000006 / 10, ((0 : ℕ) : ℚ), ((0 : ℕ) : ℚ)] : Coord ℚ) 2 - (![1000014 / 10, ((0 : ℕ) : ℚ), ((0 : ℕ) : ℚ)] : Coord ℚ) 2)
    norm_num at h
    norm_num at h0
    linarith
  · intro a
    match a with
    | 0 =>
      have e1 : ⌊(1000006 / 10 : ℚ) + 1 / 2⌋ = 100001 := by rw [Int.floor_eq_iff]; norm_num
      have e2 : ⌊(1000014 / 10 : ℚ) + 1 / 2⌋ = 100001 := by rw [Int.floor_eq_iff]; norm_num
      show ((⌊(1000006 / 10 : ℚ) + 1 / 2⌋ : ℤ) : ℚ) = ((⌊(1000014 / 10 : ℚ) + 1 / 2⌋ : ℤ) : ℚ)
      rw [e1, e2]
    | 1 => rfl
    | 2 => rfl

end Mains
end Colloids
