import Verif.Boo.Lemmas

/-! # Helper lemmas on the files of coefficients -/

namespace Colloids
namespace Boo

/-- The doubles of a tensor: real and imaginary parts, interleaved. -/
def doubles (q : BooData) : List ℝ := q.flatMap (fun z => [z.re, z.im])

theorem doubles_length (q : BooData) : (doubles q).length = 2 * q.length := by
  unfold doubles
  induction q with
  | nil => rfl
  | cons a q ih => rw [List.flatMap_cons, List.length_append, ih]; simp; omega

theorem doubles_append (a b : BooData) : doubles (a ++ b) = doubles a ++ doubles b := by
  simp [doubles]

theorem doubles_get (q : BooData) (i : Nat) (h : i < q.length) :
    (doubles q)[2 * i]? = some q[i].re ∧ (doubles q)[2 * i + 1]? = some q[i].im := by
  induction q generalizing i with
  | nil => simp at h
  | cons a q ih =>
    have e : doubles (a :: q) = a.re :: a.im :: doubles q := by simp [doubles]
    rw [e]
    cases i with
    | zero => simp
    | succ i =>
      have := ih i (by simpa using h)
      rw [show 2 * (i + 1) = 2 * i + 1 + 1 by ring]
      simpa using this

theorem toBinary_eq (q : BooData) (out : List ℝ) (h : 2 * q.length ≤ out.length) :
    toBinary q out = .ok (doubles q ++ out.drop (2 * q.length)) := by
  unfold toBinary
  have : ∀ k, k ≤ q.length → (List.range k).foldlM (fun out i => do
      let z ← getR q i
      let out ← setR out (2 * i) z.re
      setR out (2 * i + 1) z.im) out = .ok (doubles (q.take k) ++ out.drop (2 * k)) := by
    intro k
    induction k with
    | zero => intro _; simp [doubles]
    | succ k ih =>
      intro hk
      rw [List.range_succ, List.foldlM_append, ih (by omega)]
      simp only [ok_bind, List.foldlM_cons, List.foldlM_nil]
      rw [getR_of_lt (by omega), ok_bind]
      have hd : (doubles (q.take k)).length = 2 * k := by rw [doubles_length]; simp; omega
      have e : out.drop (2 * k) = out[2 * k]'(by omega) :: out[2 * k + 1]'(by omega)
          :: out.drop (2 * (k + 1)) := by
        rw [List.drop_eq_getElem_cons (by omega), List.drop_eq_getElem_cons (by omega)]
        rfl
      rw [e]
      unfold setR
      rw [if_pos (by simp; omega), ok_bind, if_pos (by simp; omega)]
      simp only [pure_eq_ok, ok_bind]
      congr 1
      rw [List.take_succ_eq_append_getElem (by omega), doubles_append]
      rw [List.set_append_right (s := doubles (q.take k)) (2 * k) _ (by omega), hd]
      rw [List.set_append_right (s := doubles (q.take k)) (2 * k + 1) _ (by omega), hd]
      simp [doubles, show 2 * k + 1 - 2 * k = 1 by omega]
  have := this q.length le_rfl
  rw [List.take_length] at this
  exact this

theorem ofBuffer_eq (buff : List ℝ) (start : Nat) (q : BooData) (hq : q.length = 36)
    (h : ∀ i (hi : i < q.length), buff[start + 2 * i]? = some q[i].re ∧
      buff[start + 2 * i + 1]? = some q[i].im) : ofBuffer buff start = .ok q := by
  unfold ofBuffer
  have : ∀ k, k ≤ 36 → (List.range k).foldlM (fun q i => do
      let re ← getR buff (start + 2 * i)
      let im ← getR buff (start + 2 * i + 1)
      setR q i (⟨re, im⟩ : ℂ)) blank = .ok (q.take k ++ List.replicate (36 - k) 0) := by
    intro k
    induction k with
    | zero => intro _; simp [blank]
    | succ k ih =>
      intro hk
      rw [List.range_succ, List.foldlM_append, ih (by omega)]
      simp only [ok_bind, List.foldlM_cons, List.foldlM_nil]
      obtain ⟨h1, h2⟩ := h k (by omega)
      rw [getR_ok.2 h1, ok_bind, getR_ok.2 h2, ok_bind]
      unfold setR
      rw [if_pos (by simp; omega)]
      simp only [pure_eq_ok, ok_bind]
      congr 1
      have hl : (q.take k).length = k := by simp; omega
      rw [List.set_append_right _ _ (by omega), hl, Nat.sub_self]
      rw [show 36 - k = (36 - (k + 1)) + 1 by omega, List.replicate_succ, List.set_cons_zero]
      rw [List.take_succ_eq_append_getElem (by omega), List.append_assoc]
      rfl
  have := this 36 le_rfl
  rw [this, ← hq, List.take_length]
  simp [hq]

theorem exportQlm_eq (uninit : List ℝ) (hu : uninit.length = 72) (boos : List BooData)
    (hb : ∀ q ∈ boos, q.length = 36) : exportQlm uninit boos = .ok (boos.flatMap doubles) := by
  unfold exportQlm
  have : ∀ (L : List BooData) (f b : List ℝ), b.length = 72 → (∀ q ∈ L, q.length = 36) →
      ∃ b', L.foldlM (fun (fb : List ℝ × List ℝ) q => do
        let buffer ← toBinary q fb.2
        pure (fb.1 ++ buffer, buffer)) (f, b) = .ok (f ++ L.flatMap doubles, b') := by
    intro L
    induction L with
    | nil => intro f b _ _; exact ⟨b, by simp⟩
    | cons q L ih =>
      intro f b hlen hL
      have h36 := hL q (by simp)
      rw [List.foldlM_cons]
      simp only
      rw [toBinary_eq q b (by omega), List.drop_eq_nil_of_le (by omega), List.append_nil]
      simp only [ok_bind, pure_eq_ok]
      obtain ⟨b', e⟩ := ih (f ++ doubles q) (doubles q) (by rw [doubles_length]; omega)
        (fun q hq => hL q (by simp [hq]))
      refine ⟨b', ?_⟩
      simp only [pure_eq_ok] at e
      rw [e]; simp
  obtain ⟨b', e⟩ := this boos [] uninit hu hb
  rw [e]
  simp

theorem flatMap_doubles_get (boos : List BooData) (hb : ∀ q ∈ boos, q.length = 36) (p : Nat)
    (hp : p < boos.length) (j : Nat) (hj : j < 72) :
    (boos.flatMap doubles)[72 * p + j]? = (doubles boos[p])[j]? := by
  induction boos generalizing p with
  | nil => simp at hp
  | cons q boos ih =>
    have hl : (doubles q).length = 72 := by rw [doubles_length, hb q (by simp)]
    rw [List.flatMap_cons]
    cases p with
    | zero => rw [List.getElem?_append_left (by omega)]; simp
    | succ p =>
      rw [List.getElem?_append_right (by omega), hl]
      rw [show 72 * (p + 1) + j - 72 = 72 * p + j by omega]
      rw [ih (fun q hq => hb q (by simp [hq])) p (by simpa using hp)]
      simp

theorem flatMap_doubles_length (boos : List BooData) (hb : ∀ q ∈ boos, q.length = 36) :
    (boos.flatMap doubles).length = 72 * boos.length := by
  induction boos with
  | nil => rfl
  | cons q boos ih =>
    rw [List.flatMap_cons, List.length_append, ih (fun q hq => hb q (by simp [hq])),
      doubles_length, hb q (by simp), List.length_cons]
    ring

/-- A complex number after its passage through the text. -/
noncomputable def roundC (round : ℝ → ℝ) (z : ℂ) : ℂ := ⟨round z.re, round z.im⟩

theorem scanBooFrom_print (round : ℝ → ℝ) (q : BooData) (s : List ℝ) :
    scanBooFrom q.length (printBoo round q ++ s) = some (q.map (roundC round), s) := by
  induction q with
  | nil => rfl
  | cons a q ih =>
    have e : printBoo round (a :: q) ++ s
        = round a.re :: round a.im :: (printBoo round q ++ s) := by simp [printBoo]
    rw [e, List.length_cons, scanBooFrom, ih]
    rfl

theorem scanBoo_nil : scanBoo [] = none := rfl

theorem loadFrom_eq (round : ℝ → ℝ) (L : List BooData) (hL : ∀ q ∈ L, q.length = 36) (fuel : Nat)
    (hf : L.length < fuel) (p : Nat) (boos : List BooData) :
    loadFrom fuel (L.flatMap (printBoo round)) p boos =
      if p + L.length ≤ boos.length ∨ L = [] then
        .ok (boos.take p ++ L.map (List.map (roundC round)) ++ boos.drop (p + L.length))
      else .error .ub := by
  induction L generalizing fuel p boos with
  | nil =>
    cases fuel with
    | zero => simp at hf
    | succ fuel => simp [loadFrom, scanBoo_nil]
  | cons q L ih =>
    cases fuel with
    | zero => simp at hf
    | succ fuel =>
      rw [List.flatMap_cons, loadFrom]
      have := scanBooFrom_print round q (L.flatMap (printBoo round))
      rw [hL q (by simp)] at this
      unfold scanBoo
      rw [this]
      simp only
      unfold setR
      by_cases hp : p < boos.length
      · rw [if_pos hp, ok_bind, ih (fun q hq => hL q (by simp [hq])) fuel (by simpa using hf)]
        rw [List.length_set]
        by_cases hc : p + (L.length + 1) ≤ boos.length
        · rw [if_pos (by left; omega), if_pos (by left; simpa using hc)]
          congr 1
          rw [List.take_set, List.drop_set, if_pos (by omega)]
          rw [List.take_succ_eq_append_getElem hp, List.set_append_right _ _ (by simp)]
          simp [Nat.min_eq_left (le_of_lt hp)]
          omega
        · rw [if_neg, if_neg]
          · simp; omega
          · intro h
            rcases h with h | h
            · omega
            · subst h; simp at hc; omega
      · rw [if_neg hp, if_neg]
        · rfl
        · simp; omega

/-- The tokens of a line of a q6m file for 7 values. -/
def lineOf (zs : List ℂ) : List Tok := zs.flatMap (fun z => [Tok.ws, Tok.val z])

theorem read_ws_val (k : Nat) (z : ℂ) (r : List Tok) (e : Bool) :
    Stream.read ⟨List.replicate k Tok.ws ++ Tok.val z :: r, e⟩ = (some z, ⟨r, e⟩) := by
  have : (List.replicate k Tok.ws ++ Tok.val z :: r).dropWhile Tok.isWs = Tok.val z :: r := by
    induction k with
    | zero => rfl
    | succ k ih => rw [List.replicate_succ, List.cons_append, List.dropWhile_cons_of_pos rfl, ih]
  unfold Stream.read
  dsimp only
  rw [this]

theorem read_ws (k : Nat) (e : Bool) :
    Stream.read ⟨List.replicate k Tok.ws, e⟩ = (none, ⟨[], true⟩) := by
  have : (List.replicate k Tok.ws).dropWhile Tok.isWs = [] := by
    induction k with
    | zero => rfl
    | succ k ih => rw [List.replicate_succ, List.dropWhile_cons_of_pos rfl, ih]
  unfold Stream.read
  dsimp only
  rw [this]

/-- Coefficients overwritten from the order `j` of degree 6 on. -/
noncomputable def over (q : BooData) (j : Nat) : List ℂ → BooData
  | [] => q
  | z :: zs => over (q.set (j + 9) z) (j + 1) zs

theorem over_length (q : BooData) (j : Nat) (zs : List ℂ) : (over q j zs).length = q.length := by
  induction zs generalizing q j with
  | nil => rfl
  | cons z zs ih => rw [over, ih]; simp

theorem over_get (q : BooData) (j : Nat) (zs : List ℂ) (i : Nat) (h : j + 9 + zs.length ≤ q.length) :
    (over q j zs)[i]? = if j + 9 ≤ i ∧ i < j + 9 + zs.length then zs[i - (j + 9)]? else q[i]? := by
  induction zs generalizing q j with
  | nil =>
    rw [if_neg (by simp)]
    rfl
  | cons z zs ih =>
    simp only [List.length_cons] at h ⊢
    rw [over, ih _ _ (by simp; omega)]
    by_cases h1 : i = j + 9
    · subst h1
      rw [if_neg (by omega), if_pos (by omega), List.getElem?_set_self (by omega)]
      simp
    · by_cases h2 : j + 9 ≤ i ∧ i < j + 9 + (zs.length + 1)
      · rw [if_pos (by omega), if_pos h2, show i - (j + 9) = (i - (j + 1 + 9)) + 1 by omega]
        simp
      · rw [if_neg (by omega), if_neg h2, List.getElem?_set, if_neg (by omega)]

/-- The body of the loop of `q6mLine`. -/
noncomputable def q6mStep (p : Nat) (sb : Stream × List BooData) (m : Nat) :
    R (Stream × List BooData) := do
  let q ← getR sb.2 p
  let x ← getR q (m + 9)
  let q ← setR q (m + 9) (sb.1.read.1.getD x)
  let boos ← setR sb.2 p q
  pure (sb.1.read.2, boos)

theorem q6mLine_def (p : Nat) (s : Stream) (boos : List BooData) :
    q6mLine p s boos = (List.range 7).foldlM (q6mStep p) (s, boos) := rfl

theorem q6mStep_ok (p m : Nat) (s : Stream) (boos : List BooData) (hp : p < boos.length)
    (h36 : m + 9 < boos[p].length) :
    q6mStep p (s, boos) m =
      .ok (s.read.2, boos.set p (boos[p].set (m + 9) (s.read.1.getD boos[p][m + 9]))) := by
  unfold q6mStep
  simp only
  rw [getR_of_lt hp, ok_bind, getR_of_lt h36, ok_bind]
  unfold setR
  rw [if_pos h36, ok_bind, if_pos hp]
  rfl

theorem q6m_vals (zs : List ℂ) (j k : Nat) (rest : List Tok) (p : Nat) (boos : List BooData)
    (hp : p < boos.length) (h36 : j + zs.length + 9 ≤ boos[p].length) (hz : zs ≠ []) :
    (List.range' j zs.length).foldlM (q6mStep p)
      (⟨List.replicate k Tok.ws ++ (lineOf zs ++ rest), false⟩, boos) =
      .ok (⟨rest, false⟩, boos.set p (over boos[p] j zs)) := by
  induction zs generalizing j k boos with
  | nil => exact absurd rfl hz
  | cons z zs ih =>
    simp only [List.length_cons] at h36
    have e : List.replicate k Tok.ws ++ (lineOf (z :: zs) ++ rest)
        = List.replicate (k + 1) Tok.ws ++ Tok.val z :: (lineOf zs ++ rest) := by
      rw [List.replicate_succ']
      simp [lineOf]
    rw [e, List.length_cons, List.range'_succ, List.foldlM_cons,
      q6mStep_ok p j _ _ hp (by omega), read_ws_val, ok_bind]
    simp only [Option.getD_some]
    cases zs with
    | nil => simp [lineOf, over]
    | cons z' zs =>
      have := ih (j + 1) 0 (boos.set p (boos[p].set (j + 9) z)) (by simpa using hp)
        (by simp; simp at h36; omega) (by simp)
      simp only [List.replicate_zero, List.nil_append] at this
      rw [this]
      congr 2
      rw [over.eq_2 boos[p]]
      simp

theorem q6mLine_end (k p : Nat) (boos : List BooData) (hp : p < boos.length)
    (h36 : boos[p].length = 36) :
    q6mLine p ⟨List.replicate k Tok.ws, false⟩ boos = .ok (⟨[], true⟩, boos) := by
  have step : ∀ (m k : Nat) (e : Bool), m < 7 →
      q6mStep p (⟨List.replicate k Tok.ws, e⟩, boos) m = .ok (⟨[], true⟩, boos) := by
    intro m k e hm
    rw [q6mStep_ok p m _ _ hp (by omega), read_ws]
    simp
  rw [q6mLine_def]
  have : ∀ (L : List Nat), (∀ m ∈ L, m < 7) →
      L.foldlM (q6mStep p) (⟨[], true⟩, boos) = .ok (⟨[], true⟩, boos) := by
    intro L
    induction L with
    | nil => intro _; rfl
    | cons m L ih =>
      intro h
      rw [List.foldlM_cons, show (⟨[], true⟩ : Stream) = ⟨List.replicate 0 Tok.ws, true⟩ from rfl,
        step m 0 true (h m (by simp)), ok_bind]
      exact ih (fun m hm => h m (by simp [hm]))
  rw [show List.range 7 = 0 :: [1, 2, 3, 4, 5, 6] from rfl, List.foldlM_cons,
    step 0 k false (by omega), ok_bind]
  exact this _ (by decide)

theorem q6mLine_ub (p : Nat) (s : Stream) (boos : List BooData) (hp : boos.length ≤ p) :
    q6mLine p s boos = .error .ub := by
  rw [q6mLine_def, show List.range 7 = 0 :: [1, 2, 3, 4, 5, 6] from rfl, List.foldlM_cons]
  unfold q6mStep
  simp only
  rw [getR_eq_ub hp]
  rfl

/-- The loop on a file made of lines of seven values. -/
theorem q6mLoop_eq (L : List (List ℂ)) (hL : ∀ zs ∈ L, zs.length = 7) (fuel k p : Nat)
    (boos : List BooData) (hb : ∀ q ∈ boos, q.length = 36) (hf : boos.length < p + fuel)
    (hp : p ≤ boos.length) :
    q6mLoop fuel p ⟨List.replicate k Tok.ws ++ L.flatMap (fun zs => lineOf zs ++ [Tok.ws]), false⟩ boos =
      if p + L.length < boos.length then
        .ok (boos.take p ++ (List.zipWith (fun q zs => over q 0 zs) (boos.drop p) L)
          ++ boos.drop (p + L.length))
      else .error .ub := by
  induction L generalizing fuel k p boos with
  | nil =>
    cases fuel with
    | zero => omega
    | succ fuel =>
      unfold q6mLoop
      simp only [List.flatMap_nil, List.append_nil, List.length_nil, Nat.add_zero]
      by_cases h : p < boos.length
      · rw [q6mLine_end k p boos h (hb _ (by simp)), if_pos h]
        simp only [Bool.false_eq_true, if_false, ok_bind]
        unfold q6mLoop
        simp
      · rw [q6mLine_ub _ _ _ (by omega), if_neg h]
        rfl
  | cons zs L ih =>
    have h7 := hL zs (by simp)
    cases fuel with
    | zero => omega
    | succ fuel =>
      unfold q6mLoop
      simp only [Bool.false_eq_true, if_false]
      by_cases h : p < boos.length
      · rw [List.flatMap_cons, List.append_assoc, q6mLine_def]
        have hr : List.range 7 = List.range' 0 zs.length := by rw [h7]; rfl
        have h36 := hb boos[p] (by simp)
        rw [hr, q6m_vals zs 0 k _ p boos h (by omega) (by intro e; simp [e] at h7), ok_bind]
        simp only
        have := ih (fun zs hz => hL zs (by simp [hz])) fuel 1 (p + 1)
          (boos.set p (over boos[p] 0 zs)) (by
            intro q hq
            rcases List.mem_or_eq_of_mem_set hq with hq | hq
            · exact hb q hq
            · rw [hq, over_length]; exact h36) (by simp; omega) (by simp; omega)
        rw [List.replicate_one] at this
        rw [this, List.length_set]
        by_cases hc : p + (L.length + 1) < boos.length
        · rw [if_pos (by omega), if_pos (by simpa using hc)]
          congr 1
          rw [List.take_set, List.drop_set, if_pos (by omega), List.drop_set, if_pos (by omega)]
          rw [List.take_succ_eq_append_getElem h, List.set_append_right _ _ (by simp)]
          simp [Nat.min_eq_left (le_of_lt h), Nat.add_assoc, Nat.add_comm 1]
          rw [List.drop_eq_getElem_cons h, List.zipWith_cons_cons]
          rfl
        · rw [if_neg (by omega), if_neg (by simpa using hc)]
      · rw [q6mLine_ub _ _ _ (by omega), if_neg (by simp; omega)]
        rfl

theorem exportQ6m_eq (round : ℂ → ℂ) (boos : List BooData) (hb : ∀ q ∈ boos, q.length = 36) :
    exportQ6m round boos = .ok (boos.flatMap (fun q =>
      lineOf ((List.range 7).map (fun m => round (st q 6 m))) ++ [Tok.ws])) := by
  unfold exportQ6m
  have inner : ∀ (q : BooData) (L : List Nat) (f : List Tok), q.length = 36 → (∀ m ∈ L, m ≤ 6) →
      L.foldlM (fun file (m : Nat) => do
        let z ← coef q 6 m
        pure (file ++ [Tok.ws, Tok.val (round z)])) f
      = .ok (f ++ lineOf (L.map (fun m => round (st q 6 m)))) := by
    intro q L f hq
    induction L generalizing f with
    | nil => intro _; simp [lineOf]
    | cons m L ih =>
      intro hL
      rw [List.foldlM_cons, coef_eq hq (by decide) (by decide) (by have := hL m (by simp); omega)]
      simp only [ok_bind, pure_eq_ok] at ih ⊢
      rw [ih _ (fun m hm => hL m (by simp [hm]))]
      simp [lineOf, cf]
  have : ∀ (L : List BooData) (f : List Tok), (∀ q ∈ L, q.length = 36) →
      L.foldlM (fun file q => do
        let file ← (List.range 7).foldlM (fun file (m : Nat) => do
          let z ← coef q 6 m
          pure (file ++ [Tok.ws, Tok.val (round z)])) file
        pure (file ++ [Tok.ws])) f
      = .ok (f ++ L.flatMap (fun q =>
        lineOf ((List.range 7).map (fun m => round (st q 6 m))) ++ [Tok.ws])) := by
    intro L
    induction L with
    | nil => intro f _; simp
    | cons q L ih =>
      intro f hL
      rw [List.foldlM_cons, inner q _ f (hL q (by simp)) (by intro m hm; simp at hm; omega)]
      simp only [ok_bind, pure_eq_ok] at ih ⊢
      rw [ih _ (fun q hq => hL q (by simp [hq]))]
      simp
  have := this boos [] hb
  rw [List.nil_append] at this
  exact this

end Boo
end Colloids
