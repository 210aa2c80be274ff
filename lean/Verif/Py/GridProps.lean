import Verif.Py.GridModel
import Verif.Py.AverageProps

/-! # Spatial indexing in python (C158) -/

namespace Colloids
namespace Py
namespace Grid
open Linker (get_mapRange get_mapSet get_mapModify)
open Average (idx_some)
open TreeIndex (mapM_ok_of)

/-- The coordinates of a cell of the grid. -/
def Valid (divs : List Nat) (c : List Int) : Prop := List.Forall₂ (fun (x : Int) (d : Nat) => 0 ≤ x ∧ x < d) c divs

/-- The number of a cell. -/
def number : List Nat → List Int → Int
  | d :: ds, c :: cs => c + d * number ds cs
  | _, _ => 0

theorem number_bounds {divs : List Nat} {c : List Int} (h : Valid divs c) : 0 ≤ number divs c ∧ number divs c < (divs.prod : Nat) := by
  unfold Valid at h
  induction h with
  | nil => simp [number]
  | @cons x d c divs hx _ ih =>
    simp only [number, List.prod_cons]
    push_cast
    constructor
    · have : (0 : Int) ≤ d * number divs c := mul_nonneg (by omega) ih.1
      omega
    · have : (d : Int) * (number divs c + 1) ≤ d * (divs.prod : Nat) := mul_le_mul_of_nonneg_left (by omega) (by omega)
      push_cast at this
      nlinarith

theorem number_inj {divs : List Nat} {c c' : List Int} (h : Valid divs c) (h' : Valid divs c') (he : number divs c = number divs c') : c = c' := by
  unfold Valid at h
  induction h generalizing c' with
  | nil => cases h'; rfl
  | @cons x d c divs hx _ ih =>
    cases h' with
    | @cons x' _ c' _ hx' hc' =>
      simp only [number] at he
      have hd : (d : Int) ≠ 0 := by omega
      have h1 : x = x' := by
        have e1 : (x + d * number divs c) % d = x := by rw [Int.add_mul_emod_self_left]; exact Int.emod_eq_of_lt hx.1 hx.2
        have e2 : (x' + d * number divs c') % d = x' := by rw [Int.add_mul_emod_self_left]; exact Int.emod_eq_of_lt hx'.1 hx'.2
        rw [← e1, he, e2]
      subst h1
      have h2 : number divs c = number divs c' := by
        have : (d : Int) * number divs c = d * number divs c' := by omega
        exact mul_left_cancel₀ hd this
      rw [ih hc' h2]

theorem steps_number : ∀ (divs : List Nat) (m : Nat) (c : List Int), c.length = divs.length → divs ≠ [] →
    (List.zipWith (fun (s : Nat) (c : Int) => (s : Int) * c) (m :: (cumprod m divs).dropLast) c).sum = m * number divs c := by
  intro divs
  induction divs with
  | nil => intro m c _ h; exact absurd rfl h
  | cons d ds ih =>
    intro m c hl _
    cases c with
    | nil => simp at hl
    | cons x c =>
      cases ds with
      | nil =>
        have : c = [] := List.length_eq_zero_iff.1 (by simpa using hl)
        subst this
        simp [cumprod, number]
      | cons e es =>
        have h1 : (cumprod m (d :: e :: es)).dropLast = (m * d) :: (cumprod (m * d) (e :: es)).dropLast := by
          simp [cumprod]
        rw [h1, List.zipWith_cons_cons, List.sum_cons, ih (m * d) c (by simpa using hl) (by simp)]
        simp only [number]
        push_cast
        ring

/-- The cell of a point. -/
noncomputable def cellOf (sizes : List ℝ) (divs : List Nat) (p : List ℝ) : List Int :=
  List.zipWith (fun (x : ℝ) (y : Nat × ℝ) => ⌊x * y.1 / y.2⌋) p (divs.zip sizes)

/-- A point in the box. -/
def InBox (sizes : List ℝ) (p : List ℝ) : Prop := List.Forall₂ (fun x s => 0 ≤ x ∧ x < s) p sizes

theorem cellOf_valid {sizes : List ℝ} {divs : List Nat} {p : List ℝ} (hp : InBox sizes p) (hl : sizes.length = divs.length) (hd : ∀ d ∈ divs, 0 < d) :
    Valid divs (cellOf sizes divs p) := by
  unfold InBox at hp
  unfold Valid cellOf
  induction hp generalizing divs with
  | nil =>
    have : divs = [] := List.length_eq_zero_iff.1 hl.symm
    subst this
    exact List.Forall₂.nil
  | @cons x s p sizes hx _ ih =>
    cases divs with
    | nil => simp at hl
    | cons d divs =>
      rw [List.zip_cons_cons, List.zipWith_cons_cons]
      refine List.Forall₂.cons ?_ (ih (by simpa using hl) (fun e he => hd e (List.mem_cons_of_mem _ he)))
      have hd0 : (0 : ℝ) < d := by exact_mod_cast hd d (by simp)
      have hs : 0 < s := lt_of_le_of_lt hx.1 hx.2
      constructor
      · exact Int.floor_nonneg.2 (div_nonneg (mul_nonneg hx.1 hd0.le) hs.le)
      · rw [Int.floor_lt]
        push_cast
        rw [div_lt_iff₀ hs, mul_comm]
        exact mul_lt_mul_of_pos_left hx.2 hd0

theorem coords_eq {g : Grid} {p : List ℝ} (hp : InBox g.sizes p) (hl : g.sizes.length = g.divisions.length) : g.coords p = cellOf g.sizes g.divisions p := by
  unfold coords cellOf
  generalize g.divisions = divs at hl
  generalize g.sizes = sizes at hp hl
  unfold InBox at hp
  induction hp generalizing divs with
  | nil => rfl
  | @cons x s p sizes hx _ ih =>
    cases divs with
    | nil => simp at hl
    | cons d divs =>
      rw [List.zip_cons_cons, List.zipWith_cons_cons, List.zipWith_cons_cons, ih _ (by simpa using hl)]
      congr 1
      unfold trunc
      have hs : 0 < s := lt_of_le_of_lt hx.1 hx.2
      exact if_pos (div_nonneg (mul_nonneg hx.1 (Nat.cast_nonneg _)) hs.le)

/-- The numbers of the points that are in a cell. -/
noncomputable def content (sizes : List ℝ) (divs : List Nat) (pts : List (List ℝ)) (c : List Int) : List Nat :=
  (List.range pts.length).filter fun k => decide (∃ p, pts[k]? = some p ∧ cellOf sizes divs p = c)

/-- The state of a grid with some points. -/
structure Filled (g : Grid) (sizes : List ℝ) (divs : List Nat) (pts : List (List ℝ)) : Prop where
  hsizes : g.sizes = sizes
  hdivisions : g.divisions = divs
  id : ∀ c : List Int, c.length = divs.length → g.cellId c = number divs c
  length : g.index2cell.length = pts.length
  size : g.data.length = divs.prod
  data : ∀ c, Valid divs c → g.data[(number divs c).toNat]? = some (content sizes divs pts c)

theorem new_filled {sizes : List ℝ} {divs : List Nat} (hl : sizes.length = divs.length) (hne : divs ≠ []) :
    ∃ g, new sizes divs = .ok g ∧ Filled g sizes divs [] := by
  unfold new
  rw [if_neg (by simpa using hl)]
  cases hc : cumprod 1 divs with
  | nil =>
    cases divs with
    | nil => exact absurd rfl hne
    | cons d ds => simp [cumprod] at hc
  | cons c cs =>
    refine ⟨_, rfl, rfl, rfl, ?_, rfl, by simp, ?_⟩
    · intro x hx
      have := steps_number divs 1 x hx hne
      rw [hc] at this
      simpa [cellId] using this
    · intro x hx
      have := number_bounds hx
      rw [List.getElem?_replicate, if_pos (by omega)]
      simp [content]

theorem content_append (sizes : List ℝ) (divs : List Nat) (pts : List (List ℝ)) (p : List ℝ) (c : List Int) :
    content sizes divs (pts ++ [p]) c = content sizes divs pts c ++ if cellOf sizes divs p = c then [pts.length] else [] := by
  unfold content
  rw [List.length_append, List.length_singleton, List.range_succ, List.filter_append]
  congr 1
  · apply List.filter_congr
    intro k hk
    rw [List.getElem?_append_left (List.mem_range.1 hk)]
  · by_cases h : cellOf sizes divs p = c <;> simp [h]

theorem valid_length {divs : List Nat} {c : List Int} (h : Valid divs c) : c.length = divs.length := List.Forall₂.length_eq h

theorem add_filled {g : Grid} {sizes : List ℝ} {divs : List Nat} {pts : List (List ℝ)} (hg : Filled g sizes divs pts) {p : List ℝ} (hp : InBox sizes p)
    (hl : sizes.length = divs.length) (hd : ∀ d ∈ divs, 0 < d) : ∃ g', g.addPoint p = .ok g' ∧ Filled g' sizes divs (pts ++ [p]) := by
  have hv := cellOf_valid hp hl hd
  have hb := number_bounds hv
  have hc : g.coords p = cellOf sizes divs p := by
    have := coords_eq (g := g) (p := p) (by rw [hg.hsizes]; exact hp) (by rw [hg.hsizes, hg.hdivisions]; exact hl)
    rw [this, hg.hsizes, hg.hdivisions]
  have hid : g.cellId (g.coords p) = number divs (cellOf sizes divs p) := by rw [hc]; exact hg.id _ (valid_length hv)
  have hplace : place? g.data.length (g.cellId (g.coords p)) = .ok (number divs (cellOf sizes divs p)).toNat := by
    unfold place?
    rw [hid, if_pos hb.1, if_pos (by rw [hg.size]; omega)]
  refine ⟨⟨g.sizes, g.divisions, g.steps, g.data.modify (number divs (cellOf sizes divs p)).toNat (· ++ [g.index2cell.length]),
    g.index2cell ++ [g.cellId (g.coords p)]⟩, ?_, hg.hsizes, hg.hdivisions, hg.id, ?_, ?_, ?_⟩
  · unfold addPoint
    simp only [hplace, ok_bind]
    unfold upd
    rw [if_pos (by rw [hg.size]; omega)]
    rfl
  · simp [hg.length]
  · simp [hg.size]
  · intro c hcv
    have hbc := number_bounds hcv
    rw [List.getElem?_modify, hg.data c hcv, content_append, hg.length]
    by_cases h : cellOf sizes divs p = c
    · subst h; simp
    · have hne : (number divs (cellOf sizes divs p)).toNat ≠ (number divs c).toNat := by
        intro h1
        exact h (number_inj hv hcv (by omega))
      simp [h, hne]

/-- A new grid with points added one after the other. -/
noncomputable def load (sizes : List ℝ) (divs : List Nat) (pts : List (List ℝ)) : R Grid := do
  pts.foldlM addPoint (← new sizes divs)

/-- The sizes and points of a grid that is used as it should. -/
structure Proper (sizes : List ℝ) (divs : List Nat) (pts : List (List ℝ)) : Prop where
  lengths : sizes.length = divs.length
  some : divs ≠ []
  pos : ∀ d ∈ divs, 0 < d
  box : ∀ p ∈ pts, InBox sizes p

theorem load_filled {sizes : List ℝ} {divs : List Nat} {pts : List (List ℝ)} (h : Proper sizes divs pts) :
    ∃ g, load sizes divs pts = .ok g ∧ Filled g sizes divs pts := by
  obtain ⟨g, h1, h2⟩ := new_filled h.lengths h.some
  unfold load
  rw [h1, ok_bind]
  have : ∀ (l done : List (List ℝ)) (g : Grid), Filled g sizes divs done → (∀ p ∈ l, InBox sizes p) →
      ∃ g', l.foldlM addPoint g = .ok g' ∧ Filled g' sizes divs (done ++ l) := by
    intro l
    induction l with
    | nil => intro done g hg _; exact ⟨g, rfl, by simpa using hg⟩
    | cons p l ih =>
      intro done g hg hb
      obtain ⟨g1, h3, h4⟩ := add_filled hg (hb p (by simp)) h.lengths h.pos
      obtain ⟨g2, h5, h6⟩ := ih (done ++ [p]) g1 h4 (fun q hq => hb q (List.mem_cons_of_mem _ hq))
      refine ⟨g2, ?_, by simpa using h6⟩
      rw [List.foldlM_cons, h3, ok_bind, h5]
  simpa using this pts [] g h2 h.box

theorem cell_filled {g : Grid} {sizes : List ℝ} {divs : List Nat} {pts : List (List ℝ)} (hg : Filled g sizes divs pts) {c : List Int} (hc : Valid divs c) :
    g.cell c = .ok (content sizes divs pts c) := by
  have hb := number_bounds hc
  unfold cell place?
  rw [hg.id c (valid_length hc), if_pos hb.1, if_pos (by rw [hg.size]; omega), ok_bind, idx_some (hg.data c hc)]

/-- C158: points in the box can all be added to a grid; each is numbered by its rank, and found in the cell of its coordinates, in this cell only. -/
theorem C158_cells {sizes : List ℝ} {divs : List Nat} {pts : List (List ℝ)} (h : Proper sizes divs pts) :
    ∃ g, load sizes divs pts = .ok g ∧ g.index2cell.length = pts.length ∧ (∀ p ∈ pts, Valid divs (cellOf sizes divs p)) ∧
      ∀ c, Valid divs c → ∃ l : List Nat, g.cell c = .ok l ∧ l.Pairwise (· < ·) ∧ ∀ k, k ∈ l ↔ ∃ p, pts[k]? = some p ∧ cellOf sizes divs p = c := by
  obtain ⟨g, h1, h2⟩ := load_filled h
  refine ⟨g, h1, h2.length, fun p hp => cellOf_valid (h.box p hp) h.lengths h.pos, ?_⟩
  intro c hc
  refine ⟨_, cell_filled h2 hc, (List.pairwise_lt_range).filter _, ?_⟩
  intro k
  simp only [content, List.mem_filter, List.mem_range, decide_eq_true_eq, and_iff_right_iff_imp]
  rintro ⟨p, hp, _⟩
  exact (List.getElem?_eq_some_iff.1 hp).1

theorem mem_content {sizes : List ℝ} {divs : List Nat} {pts : List (List ℝ)} {c : List Int} {k : Nat} :
    k ∈ content sizes divs pts c ↔ ∃ p, pts[k]? = some p ∧ cellOf sizes divs p = c := by
  simp only [content, List.mem_filter, List.mem_range, decide_eq_true_eq, and_iff_right_iff_imp]
  rintro ⟨p, hp, _⟩
  exact (List.getElem?_eq_some_iff.1 hp).1

theorem content_nodup (sizes : List ℝ) (divs : List Nat) (pts : List (List ℝ)) (c : List Int) : (content sizes divs pts c).Nodup :=
  List.Nodup.filter _ List.nodup_range

theorem mem_intRange {a b x : Int} : x ∈ intRange a b ↔ a ≤ x ∧ x < b := by
  simp only [intRange, List.mem_map, List.mem_range]
  constructor
  · rintro ⟨k, hk, rfl⟩; omega
  · intro h; exact ⟨(x - a).toNat, by omega, by omega⟩

theorem intRange_nodup (a b : Int) : (intRange a b).Nodup := by
  unfold intRange
  apply List.Nodup.map _ List.nodup_range
  intro k k' h
  simp only at h
  omega

theorem mem_product : ∀ {ls : List (List Int)} {c : List Int}, c ∈ product ls ↔ List.Forall₂ (· ∈ ·) c ls := by
  intro ls
  induction ls with
  | nil => intro c; simp [product]
  | cons l ls ih =>
    intro c
    simp only [product, List.mem_flatMap, List.mem_map]
    constructor
    · rintro ⟨x, hx, c', hc', rfl⟩
      exact List.Forall₂.cons hx (ih.1 hc')
    · intro h
      cases h with
      | @cons x _ c' _ hx hc => exact ⟨x, hx, c', ih.2 hc, rfl⟩

theorem product_nodup : ∀ {ls : List (List Int)}, (∀ l ∈ ls, l.Nodup) → (product ls).Nodup := by
  intro ls
  induction ls with
  | nil => intro _; simp [product]
  | cons l ls ih =>
    intro h
    rw [product, List.nodup_flatMap]
    constructor
    · intro x _
      exact (ih (fun l' hl' => h l' (List.mem_cons_of_mem _ hl'))).map (fun a b hab => (List.cons.inj hab).2)
    · refine (h l (by simp)).imp ?_
      intro a b hab x hxa hxb
      obtain ⟨y, _, rfl⟩ := List.mem_map.1 hxa
      obtain ⟨z, _, hz⟩ := List.mem_map.1 hxb
      exact hab (List.cons.inj hz).1.symm

/-- A cell at least `d` cells away from the faces of the box. -/
def Deep (divs : List Nat) (d : Nat) (c : List Int) : Prop := List.Forall₂ (fun (x : Int) (div : Nat) => (d : Int) ≤ x ∧ x + d < div) c divs

theorem mem_inner {divs : List Nat} {d : Nat} {c : List Int} : c ∈ product (divs.map fun div : Nat => intRange d ((div : Int) - d)) ↔ Deep divs d c := by
  rw [mem_product, List.forall₂_map_right_iff]
  unfold Deep
  constructor <;> intro h <;> refine h.imp ?_
  · intro x div hx
    rw [mem_intRange] at hx
    omega
  · intro x div hx
    rw [mem_intRange]
    omega

theorem deep_valid {divs : List Nat} {d : Nat} {c : List Int} (h : Deep divs d c) : Valid divs c :=
  List.Forall₂.imp (fun _ _ hx => by omega) h

/-- C158: `get_inside` gives each point whose cell is at least `d` cells away from the faces of the box, once. -/
theorem C158_inside {sizes : List ℝ} {divs : List Nat} {pts : List (List ℝ)} (h : Proper sizes divs pts) (d : Nat) :
    ∃ (g : Grid) (l : List Nat), load sizes divs pts = .ok g ∧ g.getInside d = .ok l ∧ l.Nodup ∧
      ∀ k, k ∈ l ↔ ∃ p, pts[k]? = some p ∧ Deep divs d (cellOf sizes divs p) := by
  obtain ⟨g, h1, h2⟩ := load_filled h
  have hrun : g.getInside d = .ok ((product (divs.map fun div : Nat => intRange d ((div : Int) - d))).flatMap (content sizes divs pts)) := by
    unfold getInside
    rw [h2.hdivisions, mapM_ok_of _ (content sizes divs pts) _ (fun c hc => cell_filled h2 (deep_valid (mem_inner.1 hc))), ok_bind, List.flatMap_def]
    rfl
  refine ⟨g, _, h1, hrun, ?_, ?_⟩
  · rw [List.nodup_flatMap]
    refine ⟨fun c _ => content_nodup _ _ _ _, ?_⟩
    have hn : (product (divs.map fun div : Nat => intRange d ((div : Int) - d))).Nodup :=
      product_nodup (by intro l hl; obtain ⟨div, _, rfl⟩ := List.mem_map.1 hl; exact intRange_nodup _ _)
    refine hn.imp ?_
    intro a b hab k hka hkb
    obtain ⟨p, hp, rfl⟩ := mem_content.1 hka
    obtain ⟨q, hq, rfl⟩ := mem_content.1 hkb
    rw [hp] at hq
    cases hq
    exact hab rfl
  · intro k
    rw [List.mem_flatMap]
    constructor
    · rintro ⟨c, hc, hk⟩
      obtain ⟨p, hp, rfl⟩ := mem_content.1 hk
      exact ⟨p, hp, mem_inner.1 hc⟩
    · rintro ⟨p, hp, hd⟩
      exact ⟨_, mem_inner.2 hd, mem_content.2 ⟨p, hp, rfl⟩⟩

/-- Cells at most `d` cells apart. -/
def Close (d : Nat) (a b : List Int) : Prop := List.Forall₂ (fun x y => |x - y| ≤ (d : Int)) a b

theorem close_comm {d : Nat} {a b : List Int} : Close d a b ↔ Close d b a := by
  have : ∀ {a b : List Int}, Close d a b → Close d b a := by
    intro a b h
    unfold Close at *
    induction h with
    | nil => exact List.Forall₂.nil
    | cons hx _ ih => exact List.Forall₂.cons (by rw [abs_sub_comm]; exact hx) ih
  exact ⟨this, this⟩

theorem mem_around {c c' : List Int} {d : Nat} : c' ∈ product (c.map fun c => intRange (c - d) (c + d + 1)) ↔ Close d c c' := by
  rw [mem_product, List.forall₂_map_right_iff, close_comm]
  unfold Close
  constructor <;> intro h <;> refine h.imp ?_
  · intro x y hx
    rw [mem_intRange] at hx
    rw [abs_le]
    omega
  · intro x y hx
    rw [mem_intRange]
    rw [abs_le] at hx
    omega

theorem close_valid {divs : List Nat} {d : Nat} {c c' : List Int} (h : Deep divs d c) (h' : Close d c c') : Valid divs c' := by
  unfold Deep at h
  unfold Close at h'
  unfold Valid
  induction h generalizing c' with
  | nil => cases h'; exact List.Forall₂.nil
  | cons hx _ ih =>
    cases h' with
    | cons hy hc =>
      rw [abs_le] at hy
      exact List.Forall₂.cons (by omega) (ih hc)

theorem around_nodup (c : List Int) (d : Nat) : (product (c.map fun c => intRange (c - d) (c + d + 1))).Nodup :=
  product_nodup (by intro l hl; obtain ⟨x, _, rfl⟩ := List.mem_map.1 hl; exact intRange_nodup _ _)

/-- C158: `iter_pairs` gives once each pair of distinct points such that the first is at least `d` cells away from the faces of the box and
the cell of the second at most `d` cells away from the cell of the first. -/
theorem C158_pairs {sizes : List ℝ} {divs : List Nat} {pts : List (List ℝ)} (h : Proper sizes divs pts) (d : Nat) :
    ∃ (g : Grid) (l : List (Nat × Nat)), load sizes divs pts = .ok g ∧ g.iterPairs d = .ok l ∧ l.Nodup ∧
      ∀ k m, (k, m) ∈ l ↔ k ≠ m ∧ ∃ p q, pts[k]? = some p ∧ pts[m]? = some q ∧ Deep divs d (cellOf sizes divs p) ∧
        Close d (cellOf sizes divs p) (cellOf sizes divs q) := by
  obtain ⟨g, h1, h2⟩ := load_filled h
  let F := content sizes divs pts
  let one : List Int → List Int → List (Nat × Nat) := fun cp cq => (F cp ×ˢ F cq).filter fun x => x.1 ≠ x.2
  let inner : List Int → List (Nat × Nat) := fun cp => (product (cp.map fun c => intRange (c - d) (c + d + 1))).flatMap (one cp)
  have hrun : g.iterPairs d = .ok ((product (divs.map fun div : Nat => intRange d ((div : Int) - d))).flatMap inner) := by
    unfold iterPairs
    rw [h2.hdivisions, mapM_ok_of _ inner _ ?_, ok_bind, List.flatMap_def]
    · rfl
    intro cp hcp
    have hdp := mem_inner.1 hcp
    rw [mapM_ok_of _ (one cp) _ ?_, ok_bind]
    · simp only [inner, List.flatMap_def, pure_eq_ok]
    intro cq hcq
    rw [cell_filled h2 (deep_valid hdp), ok_bind, cell_filled h2 (close_valid hdp (mem_around.1 hcq)), ok_bind]
    rfl
  have hone : ∀ cp cq k m, (k, m) ∈ one cp cq ↔ k ≠ m ∧ k ∈ F cp ∧ m ∈ F cq := by
    intro cp cq k m
    simp only [one, List.mem_filter, decide_eq_true_eq]
    have : (k, m) ∈ F cp ×ˢ F cq ↔ k ∈ F cp ∧ m ∈ F cq := List.pair_mem_product
    rw [this]
    tauto
  have hF : ∀ {c c' k}, k ∈ F c → k ∈ F c' → c = c' := by
    intro c c' k hk hk'
    obtain ⟨p, hp, rfl⟩ := mem_content.1 hk
    obtain ⟨q, hq, rfl⟩ := mem_content.1 hk'
    rw [hp] at hq
    cases hq
    rfl
  refine ⟨g, _, h1, hrun, ?_, ?_⟩
  · rw [List.nodup_flatMap]
    constructor
    · intro cp _
      simp only [inner]
      rw [List.nodup_flatMap]
      constructor
      · intro cq _
        exact ((content_nodup _ _ _ _).product (content_nodup _ _ _ _)).filter _
      · refine (around_nodup cp d).imp ?_
        rintro a b hab ⟨k, m⟩ hka hkb
        exact hab (hF ((hone _ _ _ _).1 hka).2.2 ((hone _ _ _ _).1 hkb).2.2)
    · have hn : (product (divs.map fun div : Nat => intRange d ((div : Int) - d))).Nodup :=
        product_nodup (by intro l hl; obtain ⟨div, _, rfl⟩ := List.mem_map.1 hl; exact intRange_nodup _ _)
      refine hn.imp ?_
      rintro a b hab ⟨k, m⟩ hka hkb
      obtain ⟨c, _, hk⟩ := List.mem_flatMap.1 hka
      obtain ⟨c', _, hk'⟩ := List.mem_flatMap.1 hkb
      exact hab (hF ((hone _ _ _ _).1 hk).2.1 ((hone _ _ _ _).1 hk').2.1)
  · intro k m
    rw [List.mem_flatMap]
    constructor
    · rintro ⟨cp, hcp, hx⟩
      obtain ⟨cq, hcq, hx⟩ := List.mem_flatMap.1 hx
      obtain ⟨hne, hk, hm⟩ := (hone _ _ _ _).1 hx
      obtain ⟨p, hp, rfl⟩ := mem_content.1 hk
      obtain ⟨q, hq, rfl⟩ := mem_content.1 hm
      exact ⟨hne, p, q, hp, hq, mem_inner.1 hcp, mem_around.1 hcq⟩
    · rintro ⟨hne, p, q, hp, hq, hd, hc⟩
      exact ⟨_, mem_inner.2 hd, List.mem_flatMap.2 ⟨_, mem_around.2 hc, (hone _ _ _ _).2 ⟨hne, mem_content.2 ⟨p, hp, rfl⟩, mem_content.2 ⟨q, hq, rfl⟩⟩⟩⟩

/-- Two points nearer than `d` cells along each axis. -/
def Within (d : Nat) : List ℝ → List Nat → List ℝ → List ℝ → Prop
  | s :: sizes, div :: divs, x :: p, y :: q => |x - y| * div ≤ d * s ∧ Within d sizes divs p q
  | _, _, _, _ => True

theorem within_close {d : Nat} {sizes : List ℝ} {divs : List Nat} {p q : List ℝ} (hl : sizes.length = divs.length) (hp : InBox sizes p)
    (hq : InBox sizes q) (h : Within d sizes divs p q) : Close d (cellOf sizes divs p) (cellOf sizes divs q) := by
  unfold InBox at hp hq
  unfold Close cellOf
  induction hp generalizing divs q with
  | nil => cases hq; exact List.Forall₂.nil
  | @cons x s p sizes hx _ ih =>
    cases hq with
    | @cons y _ q _ hy hq =>
      cases divs with
      | nil => simp at hl
      | cons div divs =>
        rw [List.zip_cons_cons, List.zipWith_cons_cons, List.zipWith_cons_cons]
        obtain ⟨h1, h2⟩ := h
        refine List.Forall₂.cons ?_ (ih (by simpa using hl) hq h2)
        have hs : 0 < s := lt_of_le_of_lt hx.1 hx.2
        have h3 : |x * div / s - y * div / s| ≤ d := by
          rw [show x * div / s - y * div / s = (x - y) * div / s by ring, abs_div, abs_mul, abs_of_pos hs, div_le_iff₀ hs, Nat.abs_cast]
          exact h1
        rw [abs_le] at h3 ⊢
        simp only
        have f1 := Int.floor_le (x * div / s)
        have f2 := Int.lt_floor_add_one (x * div / s)
        have g1 := Int.floor_le (y * div / s)
        have g2 := Int.lt_floor_add_one (y * div / s)
        constructor
        · have : (⌊y * div / s⌋ : ℝ) < ⌊x * div / s⌋ + d + 1 := by linarith
          have : ⌊y * div / s⌋ < ⌊x * div / s⌋ + d + 1 := by exact_mod_cast this
          omega
        · have : (⌊x * div / s⌋ : ℝ) < ⌊y * div / s⌋ + d + 1 := by linarith
          have : ⌊x * div / s⌋ < ⌊y * div / s⌋ + d + 1 := by exact_mod_cast this
          omega

/-- C158: no pair is missed by `iter_pairs`: if the first point is `d` cells away from the faces and the second not further than `d` times the size of
a cell along each axis, the pair is given. -/
theorem C158_complete {sizes : List ℝ} {divs : List Nat} {pts : List (List ℝ)} (h : Proper sizes divs pts) (d : Nat) :
    ∃ (g : Grid) (l : List (Nat × Nat)), load sizes divs pts = .ok g ∧ g.iterPairs d = .ok l ∧
      ∀ (k m : Nat) (p q : List ℝ), k ≠ m → pts[k]? = some p → pts[m]? = some q → Deep divs d (cellOf sizes divs p) → Within d sizes divs p q → (k, m) ∈ l := by
  obtain ⟨g, l, h1, h2, _, h3⟩ := C158_pairs h d
  refine ⟨g, l, h1, h2, ?_⟩
  intro k m p q hne hp hq hd hw
  exact (h3 k m).2 ⟨hne, p, q, hp, hq, hd, within_close h.lengths (h.box p (List.mem_of_getElem? hp)) (h.box q (List.mem_of_getElem? hq)) hw⟩

theorem mem_nearby {divs : List Nat} {d : Nat} {c c' : List Int} (hv : Valid divs c) :
    c' ∈ product (List.zipWith (fun (c : Int) (div : Nat) => intRange (max 0 (c - d)) (min (div : Int) (c + d + 1))) c divs) ↔
      Valid divs c' ∧ Close d c c' := by
  rw [mem_product]
  unfold Valid at hv ⊢
  unfold Close
  induction hv generalizing c' with
  | nil =>
    simp only [List.zipWith_nil_left, List.forall₂_nil_right_iff, List.forall₂_nil_left_iff]
    tauto
  | @cons a div c divs ha _ ih =>
    rw [List.zipWith_cons_cons]
    cases c' with
    | nil => simp
    | cons b c' =>
      rw [List.forall₂_cons, List.forall₂_cons, List.forall₂_cons, ih, mem_intRange, abs_le]
      constructor
      · rintro ⟨h3, h4, h5⟩
        exact ⟨⟨by omega, h4⟩, by omega, h5⟩
      · rintro ⟨⟨h3, h4⟩, h5, h6⟩
        exact ⟨by omega, h4, h6⟩

/-- C158: `get_near` gives in order, and each one once, the points whose cell is at most `d` cells away from the cell of a point of the box. -/
theorem C158_near {sizes : List ℝ} {divs : List Nat} {pts : List (List ℝ)} (h : Proper sizes divs pts) (d : Nat) {x : List ℝ} (hx : InBox sizes x) :
    ∃ (g : Grid) (l : List Nat), load sizes divs pts = .ok g ∧ g.getNear x d = .ok l ∧ l.Pairwise (· < ·) ∧
      ∀ k, k ∈ l ↔ ∃ p, pts[k]? = some p ∧ Close d (cellOf sizes divs x) (cellOf sizes divs p) := by
  obtain ⟨g, h1, h2⟩ := load_filled h
  have hc : g.coords x = cellOf sizes divs x := by
    have := coords_eq (g := g) (p := x) (by rw [h2.hsizes]; exact hx) (by rw [h2.hsizes, h2.hdivisions]; exact h.lengths)
    rw [this, h2.hsizes, h2.hdivisions]
  have hv := cellOf_valid hx h.lengths h.pos
  refine ⟨g, ((product (List.zipWith (fun (c : Int) (div : Nat) => intRange (max 0 (c - d)) (min (div : Int) (c + d + 1)))
      (cellOf sizes divs x) divs)).flatMap (content sizes divs pts)).dedup.mergeSort (· ≤ ·), h1, ?_, ?_, ?_⟩
  · unfold getNear
    rw [h2.hdivisions, hc, mapM_ok_of _ (content sizes divs pts) _ (fun c hcm => cell_filled h2 ((mem_nearby hv).1 hcm).1), ok_bind, List.flatMap_def]
    rfl
  · have h3 := List.pairwise_mergeSort (le := fun a b : Nat => decide (a ≤ b)) (by simp; omega) (by simp; omega)
      ((product (List.zipWith (fun (c : Int) (div : Nat) => intRange (max 0 (c - d)) (min (div : Int) (c + d + 1)))
      (cellOf sizes divs x) divs)).flatMap (content sizes divs pts)).dedup
    have h4 : (((product (List.zipWith (fun (c : Int) (div : Nat) => intRange (max 0 (c - d)) (min (div : Int) (c + d + 1)))
      (cellOf sizes divs x) divs)).flatMap (content sizes divs pts)).dedup.mergeSort (fun a b : Nat => decide (a ≤ b))).Nodup :=
      (List.mergeSort_perm _ _).nodup_iff.2 (List.nodup_dedup _)
    refine (h3.and h4).imp ?_
    rintro a b ⟨h5, h6⟩
    exact lt_of_le_of_ne (by simpa using h5) h6
  · intro k
    rw [List.mem_mergeSort, List.mem_dedup, List.mem_flatMap]
    constructor
    · rintro ⟨c, hcm, hk⟩
      obtain ⟨p, hp, rfl⟩ := mem_content.1 hk
      exact ⟨p, hp, ((mem_nearby hv).1 hcm).2⟩
    · rintro ⟨p, hp, hcl⟩
      exact ⟨_, (mem_nearby hv).2 ⟨cellOf_valid (h.box p (List.mem_of_getElem? hp)) h.lengths h.pos, hcl⟩, mem_content.2 ⟨p, hp, rfl⟩⟩

example : Proper [6, 6] [3, 3] [[1, 1], [3, 3], [5, 3]] ∧ InBox [6, 6] [2, 5] ∧ Within 1 [6, 6] [3, 3] [3, 3] [5, 3] := by
  refine ⟨⟨rfl, by simp, by simp, ?_⟩, ?_, ?_⟩
  · intro p hp
    simp only [List.mem_cons, List.not_mem_nil, or_false] at hp
    rcases hp with rfl | rfl | rfl <;> simp [InBox] <;> norm_num
  · simp [InBox]; norm_num
  · simp [Within]; norm_num

/-- C158: a point on the upper face of the box is put in the cell of points that are elsewhere. -/
theorem C158_face_counterexample : ∃ g, load [4, 4] [2, 2] [[4, 0], [0, 2]] = .ok g ∧ g.cell [0, 1] = .ok [0, 1] := by
  have e1 : ⌊(4 : ℝ) * (2 : Nat) / 4⌋ = 2 := by norm_num
  have e2 : ⌊(0 : ℝ) * (2 : Nat) / 4⌋ = 0 := by norm_num
  have e3 : ⌊(2 : ℝ) * (2 : Nat) / 4⌋ = 1 := by norm_num
  refine ⟨⟨[4, 4], [2, 2], [1, 2], [[], [], [0, 1], []], [2, 2]⟩, ?_, rfl⟩
  have h1 : new [4, 4] [2, 2] = .ok ⟨[4, 4], [2, 2], [1, 2], [[], [], [], []], []⟩ := by
    simp [new, cumprod, List.replicate]
  have h2 : ∀ data i2c, (⟨[4, 4], [2, 2], [1, 2], data, i2c⟩ : Grid).coords [4, 0] = [2, 0] := by
    intro data i2c
    simp only [coords, List.zip_cons_cons, List.zip_nil_right, List.zipWith_cons_cons, List.zipWith_nil_right, trunc, e1, e2]
    norm_num
  have h3 : ∀ data i2c, (⟨[4, 4], [2, 2], [1, 2], data, i2c⟩ : Grid).coords [0, 2] = [0, 1] := by
    intro data i2c
    simp only [coords, List.zip_cons_cons, List.zip_nil_right, List.zipWith_cons_cons, List.zipWith_nil_right, trunc, e3, e2]
    norm_num
  unfold load
  rw [h1, ok_bind, List.foldlM_cons]
  have h4 : (⟨[4, 4], [2, 2], [1, 2], [[], [], [], []], []⟩ : Grid).addPoint [4, 0] = .ok ⟨[4, 4], [2, 2], [1, 2], [[], [], [0], []], [2]⟩ := by
    unfold addPoint
    rw [h2]
    rfl
  have h5 : (⟨[4, 4], [2, 2], [1, 2], [[], [], [0], []], [2]⟩ : Grid).addPoint [0, 2] = .ok ⟨[4, 4], [2, 2], [1, 2], [[], [], [0, 1], []], [2, 2]⟩ := by
    unfold addPoint
    rw [h3]
    rfl
  rw [h4, ok_bind, List.foldlM_cons, h5]
  rfl

end Grid
end Py
end Colloids
