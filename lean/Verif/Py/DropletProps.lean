import Verif.Py.LinkerProps
import Verif.Index.Lemmas
import Verif.Py.DropletModel

/-! # C256: trajectories that end and start in `track_droplet.py` -/

namespace Colloids
namespace Py
namespace Droplet

open Linker

/-- The number of trajectories one frame before the last. -/
theorem nb_idx {l : Linker} (hg : l.Good) {old : List (List Nat)} {g f : List Nat} (hp : l.pos2tr = old ++ [g, f]) :
    ∃ nb, idx l.nbtrajs (l.nbtrajs.length - 2) = .ok nb ∧ l.nbtrajs[old.length]? = some nb := by
  have hl : l.nbtrajs.length = old.length + 2 := by rw [hg.frames, hp]; simp
  have hlt : old.length < l.nbtrajs.length := by omega
  refine ⟨l.nbtrajs[old.length], ?_, List.getElem?_eq_getElem hlt⟩
  rw [idx, show l.nbtrajs.length - 2 = old.length by omega, List.getElem?_eq_getElem hlt]

theorem last_f {l : Linker} {old : List (List Nat)} {g f : List Nat} (hp : l.pos2tr = old ++ [g, f]) : last l.pos2tr = .ok f := by
  rw [last, hp]
  simp

theorem at_f {l : Linker} {old : List (List Nat)} {g f : List Nat} (hp : l.pos2tr = old ++ [g, f]) (q tr : Nat) :
    l.At (old.length + 1) q tr ↔ f[q]? = some tr := by
  have : l.pos2tr[old.length + 1]? = some f := by rw [hp]; simp
  unfold At
  rw [this]
  simp

theorem at_g {l : Linker} {old : List (List Nat)} {g f : List Nat} (hp : l.pos2tr = old ++ [g, f]) (q tr : Nat) :
    l.At old.length q tr ↔ g[q]? = some tr := by
  have : l.pos2tr[old.length]? = some g := by rw [hp]; simp
  unfold At
  rw [this]
  simp

/-- C256. After the frame of time `t` is added: the trajectories found as terminated are those that have a position at the time before and none at `t`, each once, in
order and with this position. -/
theorem C256_terminated {G : Type} [LE G] {argsort : List G → List Nat} (hs : Sorts argsort) {l : Linker} (h : Reached argsort l)
    {old : List (List Nat)} {g f : List Nat} (hp : l.pos2tr = old ++ [g, f]) :
    ∃ out, terminated l (old.length + 1) = .ok out ∧ (out.map Prod.snd).Pairwise (· < ·) ∧ ∀ p tr, (p, tr) ∈ out ↔ g[p]? = some tr ∧ tr ∉ f := by
  have hg := (h.built hs).good
  obtain ⟨nb, h1, h2⟩ := nb_idx hg hp
  have hlen : l.pos2tr.length = old.length + 2 := by rw [hp]; simp
  have hmem : ∀ x : Nat × Nat × List Nat, x ∈ (List.range nb).zip (l.trajstart.zip l.tr2pos) ↔
      x.1 < nb ∧ l.trajstart[x.1]? = some x.2.1 ∧ l.tr2pos[x.1]? = some x.2.2 := by
    rintro ⟨i, s, steps⟩
    rw [List.mem_iff_getElem?]
    constructor
    · rintro ⟨k, hk⟩
      rw [List.getElem?_zip_eq_some, List.getElem?_zip_eq_some] at hk
      obtain ⟨h3, h4, h5⟩ := hk
      have hkn : k < nb := by
        by_contra hge
        rw [List.getElem?_eq_none (by rw [List.length_range]; omega)] at h3
        exact absurd h3 (by simp)
      rw [List.getElem?_range hkn, Option.some.injEq] at h3
      simp only at h3 h4 h5
      subst h3
      exact ⟨hkn, h4, h5⟩
    · rintro ⟨h3, h4, h5⟩
      refine ⟨i, ?_⟩
      rw [List.getElem?_zip_eq_some, List.getElem?_zip_eq_some]
      exact ⟨List.getElem?_range h3, h4, h5⟩
  have hok := TreeIndex.mapM_ok_of lastPos (fun x => (x.2.2.getLastD 0, x.1))
    (((List.range nb).zip (l.trajstart.zip l.tr2pos)).filter fun x => decide (x.2.1 + x.2.2.length = old.length + 1)) (by
    intro x hx
    obtain ⟨_, h4, h5⟩ := (hmem x).1 (List.mem_filter.1 hx).1
    have hne := (hg.ends _ _ _ h4 h5).1
    have : last x.2.2 = .ok (x.2.2.getLastD 0) := by
      rw [last, List.getLast?_eq_some_getLast hne, List.getLastD_eq_getLast?, List.getLast?_eq_some_getLast hne]
      rfl
    rw [lastPos, this, ok_bind]
    rfl)
  refine ⟨(((List.range nb).zip (l.trajstart.zip l.tr2pos)).filter fun x => decide (x.2.1 + x.2.2.length = old.length + 1)).map
      fun x => (x.2.2.getLastD 0, x.1), ?_, ?_, ?_⟩
  · rw [terminated, h1, ok_bind]
    exact hok
  · rw [List.map_map]
    have hsub : ((((List.range nb).zip (l.trajstart.zip l.tr2pos)).filter fun x => decide (x.2.1 + x.2.2.length = old.length + 1)).map
        (Prod.snd ∘ fun x : Nat × Nat × List Nat => (x.2.2.getLastD 0, x.1))).Sublist (((List.range nb).zip (l.trajstart.zip l.tr2pos)).map Prod.fst) :=
      List.Sublist.map Prod.fst List.filter_sublist
    have hpre : (((List.range nb).zip (l.trajstart.zip l.tr2pos)).map Prod.fst).Sublist (List.range nb) := by
      generalize List.range nb = a
      generalize l.trajstart.zip l.tr2pos = b
      induction a generalizing b with
      | nil => simp
      | cons x xs ih =>
        cases b with
        | nil => simp
        | cons y ys => exact (ih ys).cons_cons x
    exact List.Pairwise.sublist (hsub.trans hpre) List.pairwise_lt_range
  · intro p tr
    rw [List.mem_map]
    constructor
    · rintro ⟨x, hx, hxe⟩
      obtain ⟨hx1, hx2⟩ := List.mem_filter.1 hx
      obtain ⟨h3, h4, h5⟩ := (hmem x).1 hx1
      have hend := of_decide_eq_true hx2
      obtain ⟨he1, he2⟩ := Prod.mk.injEq _ _ _ _ ▸ hxe
      subst he2
      have hne := (hg.ends _ _ _ h4 h5).1
      have hl : 0 < x.2.2.length := List.length_pos_iff.2 hne
      constructor
      · rw [← at_g hp, hg.inverse]
        refine ⟨x.2.1, x.2.2, h4, h5, by omega, ?_⟩
        rw [show old.length - x.2.1 = x.2.2.length - 1 by omega, ← List.getLast?_eq_getElem?, ← he1, List.getLastD_eq_getLast?,
          List.getLast?_eq_some_getLast hne]
        rfl
      · intro hf
        obtain ⟨q, hq⟩ := List.mem_iff_getElem?.1 hf
        rw [← at_f hp, hg.inverse] at hq
        obtain ⟨s, steps, h6, h7, h8, h9⟩ := hq
        rw [h4, Option.some.injEq] at h6
        rw [h5, Option.some.injEq] at h7
        subst h6 h7
        rw [List.getElem?_eq_none (by omega)] at h9
        exact absurd h9 (by simp)
    · rintro ⟨h3, h4⟩
      rw [← at_g hp, hg.inverse] at h3
      obtain ⟨s, steps, h5, h6, h7, h8⟩ := h3
      have hlt : old.length - s < steps.length := by
        by_contra hge
        rw [List.getElem?_eq_none (by omega)] at h8
        exact absurd h8 (by simp)
      have hend : s + steps.length = old.length + 1 := by
        have := (hg.ends _ _ _ h5 h6).2
        by_contra hne
        have hlt2 : old.length + 1 - s < steps.length := by omega
        apply h4
        have hat : l.At (old.length + 1) steps[old.length + 1 - s] tr := by
          rw [hg.inverse]
          exact ⟨s, steps, h5, h6, by omega, List.getElem?_eq_getElem hlt2⟩
        exact List.mem_of_getElem? ((at_f hp _ _).1 hat)
      refine ⟨(tr, s, steps), ?_, ?_⟩
      · rw [List.mem_filter]
        exact ⟨(hmem _).2 ⟨(hg.counts _ _ _ _ h2 h5).2 h7, h5, h6⟩, decide_eq_true hend⟩
      · have hne := (hg.ends _ _ _ h5 h6).1
        refine Prod.ext ?_ rfl
        simp only
        rw [List.getLastD_eq_getLast?, List.getLast?_eq_getElem?, show steps.length - 1 = old.length - s by omega, h8]
        rfl

theorem mem_above {nb : Nat} {f : List Nat} {q : Nat} : above nb f q = true ↔ ∃ tr, f[q]? = some tr ∧ nb < tr := by
  unfold above
  cases hq : f[q]? with
  | none => simp
  | some tr => simp

/-- What starts in the last frame. -/
theorem starts_iff {l : Linker} (hg : l.Good) {old : List (List Nat)} {g f : List Nat} (hp : l.pos2tr = old ++ [g, f]) {nb : Nat}
    (hnb : l.nbtrajs[old.length]? = some nb) {q tr : Nat} (hq : f[q]? = some tr) : nb ≤ tr ↔ l.trajstart[tr]? = some (old.length + 1) := by
  have hlen : l.pos2tr.length = old.length + 2 := by rw [hp]; simp
  rw [← at_f hp, hg.inverse] at hq
  obtain ⟨s, steps, h5, h6, h7, _⟩ := hq
  have hc := hg.counts _ _ _ _ hnb h5
  rw [h5, Option.some.injEq]
  omega

/-- C256. The positions found as starting have a trajectory that starts at `t`; they are all those, but the one of the trajectory with the lowest number. -/
theorem C256_starting_partial {G : Type} [LE G] {argsort : List G → List Nat} (hs : Sorts argsort) {l : Linker} (h : Reached argsort l)
    {old : List (List Nat)} {g f : List Nat} (hp : l.pos2tr = old ++ [g, f]) :
    ∃ out nb, startingPos l = .ok out ∧ out.Pairwise (· < ·) ∧ (∀ tr, l.trajstart[tr]? = some (old.length + 1) → nb ≤ tr) ∧
      ∀ q, q ∈ out ↔ ∃ tr, f[q]? = some tr ∧ l.trajstart[tr]? = some (old.length + 1) ∧ tr ≠ nb := by
  have hg := (h.built hs).good
  obtain ⟨nb, h1, h2⟩ := nb_idx hg hp
  refine ⟨(List.range f.length).filter fun q => above nb f q, nb, ?_, List.pairwise_lt_range.filter _, ?_, ?_⟩
  · rw [startingPos, last_f hp, ok_bind, h1, ok_bind]
    rfl
  · intro tr htr
    have := hg.counts _ _ _ _ h2 htr
    omega
  · intro q
    rw [List.mem_filter, List.mem_range, mem_above]
    constructor
    · rintro ⟨_, tr, h3, h4⟩
      exact ⟨tr, h3, (starts_iff hg hp h2 h3).1 (by omega), by omega⟩
    · rintro ⟨tr, h3, h4, h5⟩
      have h6 := (starts_iff hg hp h2 h3).2 h4
      refine ⟨?_, tr, h3, by omega⟩
      by_contra hge
      rw [List.getElem?_eq_none (by omega)] at h3
      exact absurd h3 (by simp)

/-- C256, the part that is false. If a trajectory starts at `t`, one that does is not found; if a single one does, nothing is found. -/
theorem C256_first_counterexample {G : Type} [LE G] {argsort : List G → List Nat} (hs : Sorts argsort) {l : Linker} (h : Reached argsort l)
    {old : List (List Nat)} {g f : List Nat} (hp : l.pos2tr = old ++ [g, f]) (tr : Nat) (htr : l.trajstart[tr]? = some (old.length + 1)) :
    ∃ out q first, startingPos l = .ok out ∧ f[q]? = some first ∧ l.trajstart[first]? = some (old.length + 1) ∧ q ∉ out ∧
      ((∀ tr', l.trajstart[tr']? = some (old.length + 1) → tr' = tr) → out = []) := by
  have hg := (h.built hs).good
  have hlen : l.pos2tr.length = old.length + 2 := by rw [hp]; simp
  obtain ⟨nb, h1, h2⟩ := nb_idx hg hp
  have hs1 : startingPos l = .ok ((List.range f.length).filter fun q => above nb f q) := by
    rw [startingPos, last_f hp, ok_bind, h1, ok_bind]
    rfl
  have hle : nb ≤ tr := by
    have := hg.counts _ _ _ _ h2 htr
    omega
  have htl : tr < l.trajstart.length := by
    by_contra hge
    rw [List.getElem?_eq_none (by omega)] at htr
    exact absurd htr (by simp)
  have hnl : nb < l.trajstart.length := by omega
  have hnl' : nb < l.tr2pos.length := by rw [hg.tr2pos]; exact hnl
  have h5 := List.getElem?_eq_getElem hnl
  have h6 := List.getElem?_eq_getElem hnl'
  obtain ⟨h7, h8⟩ := hg.ends _ _ _ h5 h6
  have h9 : 0 < l.tr2pos[nb].length := List.length_pos_iff.2 h7
  have h10 := hg.counts _ _ _ _ h2 h5
  have h11 : l.trajstart[nb] = old.length + 1 := by omega
  have hat : l.At (old.length + 1) l.tr2pos[nb][0] nb := by
    rw [hg.inverse]
    refine ⟨_, _, h5, h6, by omega, ?_⟩
    rw [h11, Nat.sub_self, List.getElem?_eq_getElem h9]
  have hq := (at_f hp _ _).1 hat
  refine ⟨_, _, nb, hs1, hq, by rw [h5, h11], ?_, ?_⟩
  · intro hin
    obtain ⟨tr', h12, h13⟩ := mem_above.1 (List.mem_filter.1 hin).2
    rw [hq, Option.some.injEq] at h12
    omega
  · intro hone
    rw [List.filter_eq_nil_iff]
    intro q _ hab
    obtain ⟨tr', h12, h13⟩ := mem_above.1 hab
    have h14 := hone tr' ((starts_iff hg hp h2 h12).1 (by omega))
    have h15 := hone nb (by rw [h5, h11])
    omega

/-- Two particles; the second one is lost and another one appears. -/
example : Reached exSort ⟨[[0, 0], [1], [1]], [[0, 1], [0, 2]], [0, 0, 1], [2, 3]⟩ ∧
    ([0, 0, 1] : List Nat)[2]? = some (([] : List (List Nat)).length + 1) :=
  ⟨.load (prev := [0, 1]) (f := [0, 2]) (.new 2) rfl (by decide) rfl (by decide +kernel), rfl⟩

end Droplet
end Py
end Colloids
