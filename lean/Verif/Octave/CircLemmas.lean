import Verif.Octave.Lemmas
import Verif.Octave.Model3
import Mathlib.Tactic.IntervalCases

/-! # Lemmas on the circular buffer of planes -/

namespace Colloids
namespace Octave

variable {G : Type} [Field G] [LinearOrder G]

omit [Field G] [LinearOrder G] in
theorem slotIndex_eq {c : Circ G} {k : Int} (hz : 0 ≤ c.z0) (hk : -3 ≤ k) :
    c.slotIndex k = (k + c.z0) % 8 := by
  unfold Circ.slotIndex
  rw [Int.tmod_eq_emod_of_nonneg (by omega)]
  omega

omit [Field G] [LinearOrder G] in
theorem loadplanes_ok {o : Finder3 G} {c : Circ G} {p : Int} {l : Nat} {k : Int} {n : Nat}
    (h1 : c.slotIndex k + n ≤ 8) (h2 : 0 ≤ p) (h3 : p + n ≤ o.depth) (h4 : 0 ≤ c.slotIndex k)
    (h5 : l < c.nLayers) : c.loadplanes o p l k n = .ok { c with
      slot := fun l' q j i =>
        if l' = l ∧ (c.slotIndex k).toNat ≤ q ∧ q < (c.slotIndex k).toNat + n then
          o.layersG l (p.toNat + (q - (c.slotIndex k).toNat)) j i
        else c.slot l' q j i } := by
  unfold Circ.loadplanes
  simp only
  rw [if_neg (by omega), if_neg (by omega)]

omit [Field G] [LinearOrder G] in
theorem loadAll_aux {o : Finder3 G} {c : Circ G} {p k : Int} {n : Nat} (m : Nat)
    (h1 : c.slotIndex k + n ≤ 8) (h2 : 0 ≤ p) (h3 : p + n ≤ o.depth) (h4 : 0 ≤ c.slotIndex k)
    (h5 : m ≤ c.nLayers) :
    (List.range m).foldlM (fun c l => c.loadplanes o p l k n) c = .ok { c with
      slot := fun l' q j i =>
        if l' < m ∧ (c.slotIndex k).toNat ≤ q ∧ q < (c.slotIndex k).toNat + n then
          o.layersG l' (p.toNat + (q - (c.slotIndex k).toNat)) j i
        else c.slot l' q j i } := by
  induction m with
  | zero => simp
  | succ m ih =>
    rw [List.range_succ, foldlM_append_ok]
    refine ⟨_, ih (by omega), ?_⟩
    simp only [List.foldlM_cons, List.foldlM_nil]
    rw [loadplanes_ok (by simpa [Circ.slotIndex] using h1) h2 h3
      (by simpa [Circ.slotIndex] using h4) (by simp only; omega)]
    simp only [ok_bind, pure_eq_ok, Except.ok.injEq, Circ.mk.injEq, true_and, and_true]
    funext l' q j i
    have e : ∀ (f : Nat → Nat → Nat → Nat → G), Circ.slotIndex { c with slot := f } k =
      c.slotIndex k := fun _ => rfl
    simp only [e]
    by_cases hl : l' = m
    · subst hl
      by_cases hq : (c.slotIndex k).toNat ≤ q ∧ q < (c.slotIndex k).toNat + n
      · rw [if_pos ⟨rfl, hq⟩, if_pos ⟨by omega, hq⟩]
      · rw [if_neg (by tauto), if_neg (by tauto), if_neg (by tauto)]
    · rw [if_neg (by tauto)]
      by_cases hc : l' < m ∧ (c.slotIndex k).toNat ≤ q ∧ q < (c.slotIndex k).toNat + n
      · rw [if_pos hc, if_pos ⟨by omega, hc.2⟩]
      · rw [if_neg hc, if_neg (by intro h; exact hc ⟨by omega, h.2⟩)]

/-- The window at plane `k` holds planes `k-3` to `k-3+n-1`: reading plane `z` of the buffer gives
the plane `k+z` of the volume. -/
structure Shows (o : Finder3 G) (k : Nat) (c : Circ G) (hi : Int) : Prop where
  layers : c.nLayers = o.nbLayers + 3
  rows : c.rows = o.rows
  cols : c.cols = o.cols
  z0 : c.z0 = 1 ∨ c.z0 = 3 ∨ c.z0 = 5 ∨ c.z0 = 7
  planes : ∀ (l : Nat) (z : Int) (j i : Nat), l < o.nbLayers + 3 → -3 ≤ z → z ≤ hi →
    c.slot l ((z + c.z0) % 8).toNat j i = o.layersG l ((k : Int) + z).toNat j i

omit [Field G] [LinearOrder G] in
theorem Shows.getG {o : Finder3 G} {k : Nat} {c : Circ G} (h : Shows o k c 4) {l : Nat} {z : Int}
    {j i : Nat} (hl : l < o.nbLayers + 3) (h1 : -3 ≤ z) (h2 : z ≤ 4) (hj : j < o.rows)
    (hi : i < o.cols) : c.getG l z j i = .ok (o.layersG l ((k : Int) + z).toNat j i) := by
  have hz := h.z0
  have e := slotIndex_eq (c := c) (k := z) (by omega) h1
  unfold Circ.getG
  rw [if_pos, e, h.planes l z j i hl h1 h2]
  rw [e, h.layers, h.rows, h.cols]
  exact ⟨by omega, hl, hj, hi⟩

/-- The first six planes (octavefinder.cpp 495-498). -/
theorem load_first (o : Finder3 G) (s1 : Nat) (h3 : 3 ≤ s1) (hd : s1 + 3 ≤ o.depth) :
    ∃ c, (Circ.init (o.nbLayers + 3) o.rows o.cols : Circ G).loadAll o ((s1 : Int) - 3) (-3) 6 = .ok c ∧
      Shows o s1 c 2 := by
  unfold Circ.loadAll
  have e : (Circ.init (o.nbLayers + 3) o.rows o.cols : Circ G).slotIndex (-3) = 0 := by rfl
  rw [loadAll_aux (o.nbLayers + 3) (by rw [e]; decide) (by omega) (by push_cast; omega)
    (by rw [e]) (by simp [Circ.init])]
  refine ⟨_, rfl, by simp [Circ.init], by simp [Circ.init], by simp [Circ.init],
    by simp [Circ.init], ?_⟩
  intro l z j i hl h1 h2
  simp only [e]
  have hz0 : (Circ.init (o.nbLayers + 3) o.rows o.cols : Circ G).z0 = 3 := rfl
  rw [hz0, if_pos ⟨hl, by omega, by omega⟩]
  congr 1
  omega

/-- The next two planes (octavefinder.cpp 504-505). -/
theorem load_next {o : Finder3 G} {k : Nat} {c : Circ G} (h : Shows o k c 2)
    (hd : k + 5 ≤ o.depth) :
    ∃ c', c.loadAll o ((k : Int) + 3) 3 2 = .ok c' ∧ Shows o k c' 4 := by
  unfold Circ.loadAll
  have hz := h.z0
  have e := slotIndex_eq (c := c) (k := 3) (by omega) (by omega)
  rw [loadAll_aux (o.nbLayers + 3) (by rw [e]; push_cast; omega) (by omega) (by push_cast; omega)
    (by rw [e]; omega) (by rw [h.layers])]
  refine ⟨_, rfl, h.layers, h.rows, h.cols, h.z0, ?_⟩
  intro l z j i hl h1 h2
  simp only [e]
  by_cases hz2 : z ≤ 2
  · rw [if_neg, h.planes l z j i hl h1 hz2]
    rcases hz with hz | hz | hz | hz <;> rw [hz] <;> omega
  · rw [if_pos]
    · congr 1
      rcases hz with hz | hz | hz | hz <;> rw [hz] <;> omega
    · rcases hz with hz | hz | hz | hz <;> rw [hz] <;> omega

omit [Field G] [LinearOrder G] in
theorem Shows.next {o : Finder3 G} {k : Nat} {c : Circ G} (h : Shows o k c 4) :
    Shows o (k + 2) c.next 2 := by
  have hz := h.z0
  refine ⟨h.layers, h.rows, h.cols, ?_, ?_⟩
  · unfold Circ.next
    rcases hz with hz | hz | hz | hz <;> simp [hz]
  · intro l z j i hl h1 h2
    have := h.planes l (z + 2) j i hl (by omega) (by omega)
    unfold Circ.next
    simp only
    have e1 : (z + (c.z0 + 2).tmod 8) % 8 = (z + 2 + c.z0) % 8 := by
      rw [Int.tmod_eq_emod_of_nonneg (by omega)]
      omega
    rw [e1, this]
    congr 1
    omega

/-- The loop over the planes calls `scan` once for each window, with the right planes. -/
theorem slide_spec {σ : Type} (o : Finder3 G) (s1 : Nat) (hs : o.sizes[1]? = some s1)
    (h3 : 3 ≤ s1) (hd : s1 + 3 ≤ o.depth) :
    ∃ win : Nat → Circ G, (∀ k ∈ steps s1 (o.depth - s1 - 1), Shows o k (win k) 4) ∧
      ∀ (scan : Nat → Circ G → σ → R σ) (s : σ), slide o scan s =
        (steps s1 (o.depth - s1 - 1)).foldlM (fun s k => scan k (win k) s) s := by
  obtain ⟨c0, hc0, hw0⟩ := load_first o s1 h3 hd
  have hmax : max s1 3 = s1 := by omega
  -- from any window on
  have key : ∀ (m k : Nat) (c : Circ G), Shows o k c 2 → s1 ≤ k →
      (m = 0 ∨ k + 2 * (m - 1) < o.depth - s1 - 1) →
      ∃ win : Nat → Circ G, (∀ t < m, Shows o (k + 2 * t) (win (k + 2 * t)) 4) ∧
        ∀ (scan : Nat → Circ G → σ → R σ) (s : σ),
        (((List.range m).map (fun t => k + 2 * t)).foldlM (fun (st : Circ G × σ) (k : Nat) => do
          let c ← st.1.loadAll o ((k : Int) + 3) 3 2
          let s ← scan k c st.2
          pure (c.next, s)) (c, s) >>= fun r => pure r.2) =
        ((List.range m).map (fun t => k + 2 * t)).foldlM (fun s k => scan k (win k) s) s := by
    intro m
    induction m with
    | zero =>
      intro k c hsh _ _
      exact ⟨fun _ => c, by simp, fun scan s => by simp⟩
    | succ m ih =>
      intro k c hsh hk hm
      obtain ⟨c1, hc1, hsh1⟩ := load_next hsh (by omega)
      obtain ⟨win, hwin, hrun⟩ := ih (k + 2) c1.next hsh1.next (by omega) (by omega)
      refine ⟨fun x => if x = k then c1 else win x, ?_, ?_⟩
      · intro t ht
        cases t with
        | zero => simpa using hsh1
        | succ t =>
          simp only
          rw [if_neg (by omega)]
          have := hwin t (by omega)
          have e : k + 2 * (t + 1) = k + 2 + 2 * t := by omega
          rw [e]; exact this
      · intro scan s
        have hl : (List.range (m + 1)).map (fun t => k + 2 * t) =
            k :: (List.range m).map (fun t => k + 2 + 2 * t) := by
          rw [List.range_succ_eq_map]
          simp only [List.map_cons, List.map_map, Nat.mul_zero, Nat.add_zero]
          congr 1
          apply List.map_congr_left
          intro t _; simp only [Function.comp]; omega
        rw [hl, List.foldlM_cons, List.foldlM_cons]
        simp only [hc1, ok_bind]
        cases hscan : scan k c1 s with
        | error e => simp [hscan]
        | ok s' =>
          simp only [ok_bind, pure_eq_ok, if_true, hscan]
          have := hrun scan s'
          simp only [pure_eq_ok] at this
          rw [this]
          apply foldlM_congr_mem
          intro x hx s
          simp only [List.mem_map, List.mem_range] at hx
          obtain ⟨t, _, rfl⟩ := hx
          rw [if_neg (by omega)]
  obtain ⟨win, hwin, hrun⟩ := key ((o.depth - s1 - 1 - s1 + 1) / 2) s1 c0 hw0 (le_refl _)
    (by omega)
  refine ⟨win, ?_, ?_⟩
  · intro k hk
    rw [mem_steps] at hk
    have := hwin ((k - s1) / 2) (by omega)
    have e : s1 + 2 * ((k - s1) / 2) = k := by omega
    rwa [e] at this
  · intro scan s
    unfold slide
    rw [getR_ok.2 hs]
    simp only [ok_bind, hc0, hmax]
    exact hrun scan s

end Octave
end Colloids
