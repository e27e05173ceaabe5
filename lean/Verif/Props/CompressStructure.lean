import Verif.Lemmas.Sha2Structure

/-! # C96: the structure of the compression function of SHA-256 -/

namespace Hacspec.Props

open Hacspec.Sha2 Spec

/-- **C96.**  For a given schedule of 64 words, `shuffle` permutes the states of eight words. -/
theorem C96_shuffle (ws : List U32) (h : ws.length = 64) : Permutes 8 (shuffle ws) := permutes_shuffle h

example := C96_shuffle (List.replicate 64 5) (by simp)

/-- With fewer words it panics: the hypothesis is needed. -/
example : shuffle (List.replicate 63 5) (List.replicate 8 0) = panic := by decide +kernel

/-- **C96.**  Any sixteen consecutive words of the schedule determine the block. -/
theorem C96_schedule_window (b b' : List U8) (hb : b.length = 64) (hb' : b'.length = 64) (ws ws' : List U32)
    (h : schedule b = .ok ws) (h' : schedule b' = .ok ws') (i : Nat) (hi : i ≤ 48)
    (hw : (ws.drop i).take 16 = (ws'.drop i).take 16) : b = b' := by
  rw [schedule_ok hb, Except.ok.injEq] at h
  rw [schedule_ok hb', Except.ok.injEq] at h'
  have l : (words32be b).length = 16 := by rw [length_words32be, hb]
  have l' : (words32be b').length = 16 := by rw [length_words32be, hb']
  rw [← h, ← h', Spec.Sha256.schedule, Spec.Sha256.schedule, window_extendW l hi, window_extendW l' hi] at hw
  have := congrArg (unshifts i) hw
  rw [unshifts_shifts l, unshifts_shifts l'] at this
  exact words32be_inj (by omega) (by omega) this

/-- Fifteen words do not: two blocks that differ in the first word. -/
example : ∃ b b' ws ws', b.length = 64 ∧ b'.length = 64 ∧ schedule b = .ok ws ∧ schedule b' = .ok ws' ∧
    (ws.drop 1).take 15 = (ws'.drop 1).take 15 ∧ b ≠ b' :=
  ⟨List.replicate 64 0, 1 :: List.replicate 63 0, _, _, by simp, by simp, schedule_ok (by simp), schedule_ok (by simp),
    by decide +kernel, by decide⟩

/-- **C96.**  Every value of sixteen consecutive words of the schedule is that of some block. -/
theorem C96_schedule_onto (i : Nat) (hi : i ≤ 48) (w : List U32) (hw : w.length = 16) :
    ∃ b ws, b.length = 64 ∧ schedule b = .ok ws ∧ (ws.drop i).take 16 = w := by
  obtain ⟨b, l, e⟩ := words32be_surj (unshifts i w)
  rw [length_unshifts hw] at l
  refine ⟨b, _, l, schedule_ok l, ?_⟩
  rw [Spec.Sha256.schedule, e, window_extendW (length_unshifts hw i) hi, shifts_unshifts hw]

example := C96_schedule_onto 48 (by decide) (List.replicate 16 0) (by simp)

/-- **C96.**  `compress` adds its input state to the state shuffled by the schedule of the block. -/
theorem C96_feed_forward (b : List U8) (h : List U32) (hb : b.length = 64) (hh : h.length = 8) :
    ∃ ws r, schedule b = .ok ws ∧ shuffle ws h = .ok r ∧ r.length = 8 ∧ compress b h = .ok (List.zipWith (· + ·) r h) := by
  obtain ⟨ws, r, h1, -, h2, h3, h4⟩ := compress_shuffle hb hh
  exact ⟨ws, r, h1, h2, h3, h4⟩

example := C96_feed_forward (List.replicate 64 1) (List.replicate 8 2) (by simp) (by simp)

/-- **C96.**  Every block has exactly one state that `compress` maps to itself. -/
theorem C96_fixed_point (b : List U8) (hb : b.length = 64) :
    ∃ h, h.length = 8 ∧ compress b h = .ok h ∧ ∀ h', h'.length = 8 → compress b h' = .ok h' → h' = h := by
  obtain ⟨ws, -, hs, lw, -⟩ := compress_shuffle hb (h := List.replicate 8 0) (by simp)
  obtain ⟨h, lh, e, u⟩ := (permutes_shuffle lw).2 (List.replicate 8 0) (by simp)
  have key : ∀ h', h'.length = 8 → (compress b h' = .ok h' ↔ shuffle ws h' = .ok (List.replicate 8 0)) := by
    intro h' lh'
    obtain ⟨ws', r, hs', -, hr, lr, hc⟩ := compress_shuffle hb lh'
    rw [hs, Except.ok.injEq] at hs'
    subst hs'
    rw [hc, hr, Except.ok.injEq, Except.ok.injEq, addState_eq_right lr lh']
    exact Iff.rfl
  exact ⟨h, lh, (key h lh).2 e, fun h' lh' e' => u h' lh' ((key h' lh').1 e')⟩

example := C96_fixed_point (List.replicate 64 0) (by simp)

end Hacspec.Props
