import Verif.Lemmas.Ideal.SpongeSimulator
import Verif.Basic

/-! # The simulator's table -/

namespace Hacspec.Ideal

open Spec Spec.Sponge

variable {B X I D R Y : Type} (S : Sponge B X I D R Y)

/-- What is needed of a sponge. -/
structure Lawful : Prop where
  mix_inner : ∀ b x, S.inner (S.mix b x) = S.inner x
  unmix_mix : ∀ b x, S.unmix x (S.mix b x) = b
  mix_unmix : ∀ x x', S.inner x = S.inner x' → S.mix (S.unmix x x') x = x'
  path_inj : Function.Injective S.path
  path_ne : ∀ y, S.path y ≠ []

/-- The blocks `bs` lead to the state `s`. -/
def Node (T : List (Entry B X)) (bs : List B) (s : X) : Prop :=
  (bs = [] ∧ s = S.start) ∨ ∃ e ∈ T, e.y = s ∧ e.blocks = some bs

/-- What holds if the inner parts of all answers were new. -/
structure Sound (T : List (Entry B X)) : Prop where
  xs : (T.map Entry.x).Nodup
  ys : (T.map Entry.y).Nodup
  known : ∀ e ∈ T, ∀ bs, e.blocks = some bs → ∃ bs' b s, bs = bs' ++ [b] ∧ e.x = S.mix b s ∧ Node S T bs' s
  complete : ∀ e ∈ T, ∀ b s bs, Node S T bs s → e.x = S.mix b s → e.blocks = some (bs ++ [b])
  inner : ∀ bs s bs' s', Node S T bs s → Node S T bs' s' → S.inner s = S.inner s' → bs = bs' ∧ s = s'

/-- The inner part of `r` is new: not that of the start, of the question `q` or of a state in the table. -/
def NewInner (T : List (Entry B X)) (q r : X) : Prop :=
  S.inner r ≠ S.inner S.start ∧ S.inner r ≠ S.inner q ∧ ∀ e ∈ T, S.inner r ≠ S.inner e.x ∧ S.inner r ≠ S.inner e.y

variable {S}

theorem node_mono {T T' : List (Entry B X)} (h : T ⊆ T') {bs : List B} {s : X} (hn : Node S T bs s) : Node S T' bs s := by
  rcases hn with hn | ⟨e, he, h1⟩
  · exact .inl hn
  · exact .inr ⟨e, h he, h1⟩

theorem sound_nil : Sound S [] := by
  refine ⟨List.nodup_nil, List.nodup_nil, fun e h => absurd h List.not_mem_nil, fun e h => absurd h List.not_mem_nil, ?_⟩
  rintro bs s bs' s' (⟨rfl, rfl⟩ | ⟨e, h, -⟩) (⟨rfl, rfl⟩ | ⟨e', h', -⟩) -
  · exact ⟨rfl, rfl⟩
  · exact absurd h' List.not_mem_nil
  · exact absurd h List.not_mem_nil
  · exact absurd h List.not_mem_nil

/-- Blocks lead to states whose inner part is not new. -/
theorem fresh_node {T : List (Entry B X)} {q r : X} (hf : NewInner S T q r) {bs : List B} {s : X} (hn : Node S T bs s) :
    S.inner r ≠ S.inner s := by
  rcases hn with ⟨-, rfl⟩ | ⟨e, he, rfl, -⟩
  · exact hf.1
  · exact (hf.2.2 e he).2

section

variable [DecidableEq I] [DecidableEq X]

theorem route_iff (hS : Lawful S) {T : List (Entry B X)} (hT : Sound S T) {x : X} {bs : List B} :
    S.route T x = some bs ↔ ∃ bs' b s, bs = bs' ++ [b] ∧ x = S.mix b s ∧ Node S T bs' s := by
  have hkey : ∀ bs' s, Node S T bs' s → S.inner s = S.inner x → S.route T x = some (bs' ++ [S.unmix s x]) := by
    intro bs' s hn hi
    rw [route]
    by_cases h0 : S.inner x = S.inner S.start
    · obtain ⟨rfl, rfl⟩ := hT.inner bs' s [] S.start hn (.inl ⟨rfl, rfl⟩) (hi.trans h0)
      rw [if_pos h0, List.nil_append]
    · rw [if_neg h0]
      rcases hn with ⟨rfl, rfl⟩ | ⟨e, he, rfl, hb⟩
      · exact absurd hi.symm h0
      · obtain ⟨e', he'⟩ : ∃ e', (T.find? fun e => e.blocks.isSome && decide (S.inner e.y = S.inner x)) = some e' := by
          rw [← Option.isSome_iff_exists, List.find?_isSome]
          exact ⟨e, he, by rw [hb, hi]; simp⟩
        have h1 := List.find?_some he'
        have hm := List.mem_of_find?_eq_some he'
        rw [Bool.and_eq_true, decide_eq_true_eq, Option.isSome_iff_exists] at h1
        obtain ⟨⟨bs'', hb'⟩, hi'⟩ := h1
        obtain ⟨rfl, h2⟩ := hT.inner bs' e.y bs'' e'.y (.inr ⟨e, he, rfl, hb⟩) (.inr ⟨e', hm, rfl, hb'⟩) (hi.trans hi'.symm)
        rw [he', Option.bind_some, hb', Option.map_some, h2]
  constructor
  · intro h
    rw [route] at h
    by_cases h0 : S.inner x = S.inner S.start
    · rw [if_pos h0] at h
      exact ⟨[], S.unmix S.start x, S.start, (Option.some.inj h).symm, (hS.mix_unmix _ _ h0.symm).symm, .inl ⟨rfl, rfl⟩⟩
    · rw [if_neg h0] at h
      obtain ⟨e, he, h⟩ := Option.bind_eq_some_iff.mp h
      obtain ⟨bs', hb, h⟩ := Option.map_eq_some_iff.mp h
      have h1 := List.find?_some he
      rw [Bool.and_eq_true, decide_eq_true_eq] at h1
      exact ⟨bs', _, e.y, h.symm, (hS.mix_unmix _ _ h1.2).symm, .inr ⟨e, List.mem_of_find?_eq_some he, rfl, hb⟩⟩
  · rintro ⟨bs', b, s, rfl, rfl, hn⟩
    rw [hkey bs' s hn (hS.mix_inner b s).symm, hS.unmix_mix]

/-- A new answer of the permutation. -/
theorem sound_fwd (hS : Lawful S) {T : List (Entry B X)} (hT : Sound S T) {x y : X} (hx : ∀ e ∈ T, e.x ≠ x) (hf : NewInner S T x y) :
    Sound S (⟨x, y, S.route T x⟩ :: T) := by
  have hnode : ∀ bs s, Node S (⟨x, y, S.route T x⟩ :: T) bs s → Node S T bs s ∨ (s = y ∧ S.route T x = some bs) := by
    rintro bs s (h | ⟨e, he, rfl, hb⟩)
    · exact .inl (.inl h)
    · rcases List.mem_cons.mp he with rfl | he
      · exact .inr ⟨rfl, hb⟩
      · exact .inl (.inr ⟨e, he, rfl, hb⟩)
  have hsub : T ⊆ ⟨x, y, S.route T x⟩ :: T := List.subset_cons_self _ _
  refine ⟨?_, ?_, ?_, ?_, ?_⟩
  · rw [List.map_cons, List.nodup_cons]
    refine ⟨fun h => ?_, hT.xs⟩
    obtain ⟨e, he, h⟩ := List.mem_map.mp h
    exact hx e he h
  · rw [List.map_cons, List.nodup_cons]
    refine ⟨fun h => ?_, hT.ys⟩
    obtain ⟨e, he, h⟩ := List.mem_map.mp h
    exact (hf.2.2 e he).2 (congrArg S.inner h.symm)
  · intro e he bs hb
    rcases List.mem_cons.mp he with rfl | he
    · obtain ⟨bs', b, s, h1, h2, h3⟩ := (route_iff hS hT).mp hb
      exact ⟨bs', b, s, h1, h2, node_mono hsub h3⟩
    · obtain ⟨bs', b, s, h1, h2, h3⟩ := hT.known e he bs hb
      exact ⟨bs', b, s, h1, h2, node_mono hsub h3⟩
  · intro e he b s bs hn hxe
    have hi : S.inner e.x = S.inner s := by rw [hxe, hS.mix_inner]
    rcases List.mem_cons.mp he with rfl | he1 <;> rcases hnode bs s hn with hn1 | ⟨h, hn1⟩
    · exact (route_iff hS hT).mpr ⟨bs, b, s, rfl, hxe, hn1⟩
    · exact absurd (h ▸ hi.symm) hf.2.1
    · exact hT.complete e he1 b s bs hn1 hxe
    · exact absurd (h ▸ hi.symm) (hf.2.2 e he1).1
  · intro bs s bs' s' hn hn' hi
    rcases hnode bs s hn with h1 | ⟨h, h1⟩ <;> rcases hnode bs' s' hn' with h1' | ⟨h', h1'⟩
    · exact hT.inner bs s bs' s' h1 h1' hi
    · exact absurd (h' ▸ hi.symm) (fresh_node hf h1)
    · exact absurd (h ▸ hi) (fresh_node hf h1')
    · exact ⟨Option.some.inj (h1.symm.trans h1'), h.trans h'.symm⟩

/-- A new answer of the inverse. -/
theorem sound_bwd (hS : Lawful S) {T : List (Entry B X)} (hT : Sound S T) {x y : X} (hy : ∀ e ∈ T, e.y ≠ y) (hf : NewInner S T y x) :
    Sound S (⟨x, y, none⟩ :: T) := by
  have hnode : ∀ bs s, Node S (⟨x, y, none⟩ :: T) bs s → Node S T bs s := by
    rintro bs s (h | ⟨e, he, rfl, hb⟩)
    · exact .inl h
    · rcases List.mem_cons.mp he with rfl | he
      · cases hb
      · exact .inr ⟨e, he, rfl, hb⟩
  have hsub : T ⊆ ⟨x, y, none⟩ :: T := List.subset_cons_self _ _
  refine ⟨?_, ?_, ?_, ?_, ?_⟩
  · rw [List.map_cons, List.nodup_cons]
    refine ⟨fun h => ?_, hT.xs⟩
    obtain ⟨e, he, h⟩ := List.mem_map.mp h
    exact (hf.2.2 e he).1 (congrArg S.inner h.symm)
  · rw [List.map_cons, List.nodup_cons]
    refine ⟨fun h => ?_, hT.ys⟩
    obtain ⟨e, he, h⟩ := List.mem_map.mp h
    exact hy e he h
  · intro e he bs hb
    rcases List.mem_cons.mp he with rfl | he
    · cases hb
    · obtain ⟨bs', b, s, h1, h2, h3⟩ := hT.known e he bs hb
      exact ⟨bs', b, s, h1, h2, node_mono hsub h3⟩
  · intro e he b s bs hn hxe
    have hn := hnode bs s hn
    rcases List.mem_cons.mp he with rfl | he
    · have hxe : x = S.mix b s := hxe
      exact absurd (by rw [hxe, hS.mix_inner]) (fresh_node hf hn)
    · exact hT.complete e he b s bs hn hxe
  · intro bs s bs' s' hn hn'
    exact hT.inner bs s bs' s' (hnode bs s hn) (hnode bs' s' hn')

end

theorem walk_append (π : X → X) (x : X) (as bs : List B) : S.walk π x (as ++ bs) = S.walk π (S.walk π x as) bs := by
  induction as generalizing x with
  | nil => rfl
  | cons a as ih => exact ih _

/-- Permutations that agree with the table reach its states. -/
theorem walk_node {T : List (Entry B X)} (hT : Sound S T) {π : X → X} (hπ : ∀ e ∈ T, π e.x = e.y) {bs : List B} {s : X}
    (hn : Node S T bs s) : S.walk π S.start bs = s := by
  induction h : bs.length using Nat.strong_induction_on generalizing bs s with
  | _ n ih =>
    rcases hn with ⟨rfl, rfl⟩ | ⟨e, he, rfl, hb⟩
    · rfl
    · obtain ⟨bs', b, s, rfl, hx, hn⟩ := hT.known e he bs hb
      rw [walk_append, ih bs'.length (by rw [← h, List.length_append]; exact Nat.lt_succ_self _) hn rfl, ← hπ e he, hx]
      rfl

/-- Two entries with the same blocks are the same. -/
theorem blocks_inj {T : List (Entry B X)} (hT : Sound S T) {e e' : Entry B X} (he : e ∈ T) (he' : e' ∈ T) {bs : List B}
    (hb : e.blocks = some bs) (hb' : e'.blocks = some bs) : e = e' := by
  have key : ∀ n bs s s', bs.length = n → Node S T bs s → Node S T bs s' → s = s' := by
    intro n
    induction n with
    | zero =>
      intro bs s s' hl hn hn'
      have hnil := List.length_eq_zero_iff.mp hl
      subst hnil
      have h0 : ∀ s, Node S T [] s → s = S.start := by
        rintro s (⟨-, h⟩ | ⟨e, he, -, hb⟩)
        · exact h
        · obtain ⟨bs', b, s', h, -⟩ := hT.known e he _ hb
          exact absurd h (by simp)
      rw [h0 s hn, h0 s' hn']
    | succ n ih =>
      rintro bs s s' hl (⟨h, -⟩ | ⟨e, he, rfl, hb⟩) (⟨h', -⟩ | ⟨e', he', rfl, hb'⟩)
      · simp [h] at hl
      · simp [h] at hl
      · simp [h'] at hl
      · obtain ⟨as, b, s, rfl, hx, hn⟩ := hT.known e he bs hb
        obtain ⟨as', b', s', h, hx', hn'⟩ := hT.known e' he' _ hb'
        obtain ⟨h1, h2⟩ := List.append_inj' h rfl
        cases h2
        subst h1
        have := ih as s s' (by rw [List.length_append] at hl; exact Nat.succ.inj hl) hn hn'
        have hxx : e.x = e'.x := by rw [hx, hx', this]
        rw [List.inj_on_of_nodup_map hT.xs he he' hxx]
  have hyy := key _ bs e.y e'.y rfl (.inr ⟨e, he, rfl, hb⟩) (.inr ⟨e', he', rfl, hb'⟩)
  exact List.inj_on_of_nodup_map hT.ys he he' hyy

end Hacspec.Ideal
