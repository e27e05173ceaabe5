import Verif.Spec.Steps
import Verif.Lemmas.Leak.Aes
import Verif.Lemmas.Leak.Blake2
import Verif.Lemmas.Leak.Fips202
import Verif.Lemmas.Leak.Poly1305
import Verif.Lemmas.Leak.Sha2

/-! # The number of steps -/

set_option linter.unusedSectionVars false

namespace Hacspec.Leak

/-- An access and a branch count 1, a loop its iterations. -/
def weight : Ev → Nat
  | .times n => n
  | _ => 1

/-- The number of steps in a list of events. -/
def cost (t : List Ev) : Nat := (t.map weight).sum

theorem steps_eq (t : List Ev) : Spec.steps t = cost t := by
  induction t with
  | nil => rfl
  | cons e t ih => cases e <;> simp [Spec.steps, cost, weight, ih] <;> rfl

theorem cost_append (s t : List Ev) : cost (s ++ t) = cost s + cost t := by simp [cost]
theorem cost_cons (e : Ev) (t : List Ev) : cost (e :: t) = weight e + cost t := by simp [cost]

variable {α β : Type}

/-- At most `k` steps, also if the computation panics; a result satisfies `P`. -/
def Costs (k : Nat) (P : α → Prop) (c : L α) : Prop := cost c.trace ≤ k ∧ ∀ a, c.res = .ok a → P a

/-- No condition. -/
abbrev Free (_ : α) : Prop := True
/-- Lists of a given length. -/
abbrev HasLen (n : Nat) (l : List α) : Prop := l.length = n

theorem Costs.mono {k k' : Nat} {P Q : α → Prop} {c : L α} (h : Costs k P c) (hk : k ≤ k') (hP : ∀ a, P a → Q a) :
    Costs k' Q c := ⟨Nat.le_trans h.1 hk, fun a ha => hP a (h.2 a ha)⟩

theorem Costs.le {k k' : Nat} {P : α → Prop} {c : L α} (h : Costs k P c) (hk : k ≤ k') : Costs k' P c :=
  h.mono hk fun _ h => h

theorem Costs.free {k : Nat} {P : α → Prop} {c : L α} (h : Costs k P c) : Costs k Free c := h.mono (Nat.le_refl _) fun _ _ => trivial

theorem Costs.ok {P : α → Prop} {a : α} (h : P a) : Costs 0 P (.ok a) :=
  ⟨by simp [cost], fun b hb => by rw [res_ok, Except.ok.injEq] at hb; exact hb ▸ h⟩

theorem Costs.pure {P : α → Prop} {a : α} (h : P a) : Costs 0 P (pure a : L α) := Costs.ok h

theorem Costs.lift {x : M α} : Costs 0 Free (Leak.lift x) := ⟨by simp [cost, Leak.lift], fun _ _ => trivial⟩

theorem Costs.panic {P : α → Prop} : Costs 0 P (Leak.panic : L α) :=
  ⟨by simp [cost, Leak.panic], fun a h => by cases h⟩

theorem Costs.idx {l : List α} {i : Nat} : Costs 1 Free (Leak.idx l i) :=
  ⟨by simp [cost, Leak.idx, weight], fun _ _ => trivial⟩

theorem Costs.setIdx {l : List α} {i : Nat} {x : α} : Costs 1 (HasLen l.length) (Leak.setIdx l i x) := by
  refine ⟨by simp [cost, Leak.setIdx, weight], fun a h => ?_⟩
  rw [res_setIdx] at h
  by_cases hi : i < l.length
  · rw [Hacspec.setIdx_ok hi, Except.ok.injEq] at h; subst h; simp [HasLen]
  · rw [Hacspec.setIdx_panic (by omega)] at h; cases h

theorem Costs.require {c : Prop} [Decidable c] : Costs 1 (fun _ => c) (Leak.require c) := by
  refine ⟨by simp [cost, Leak.require, weight], fun a h => ?_⟩
  rw [res_require] at h
  by_cases hc : c
  · exact hc
  · rw [Hacspec.require_false hc] at h; cases h

theorem Costs.count {n : Nat} : Costs n Free (Seq.count n) := ⟨by simp [cost, Seq.count, weight], fun _ _ => trivial⟩

theorem Costs.bind {k l : Nat} {P : α → Prop} {Q : β → Prop} {c : L α} {f : α → L β} (h : Costs k P c)
    (hf : ∀ a, P a → Costs l Q (f a)) : Costs (k + l) Q (c >>= f) := by
  rw [bind_def, L.bind]
  cases hc : c.res with
  | error e => exact ⟨by simpa using Nat.le_add_right_of_le h.1, fun a h => by cases h⟩
  | ok a =>
    obtain ⟨h1, h2⟩ := hf a (h.2 a hc)
    exact ⟨by rw [cost_append]; exact Nat.add_le_add h.1 h1, h2⟩

theorem Costs.done {n : Nat} {P : α → Prop} {a : α} (h : P a) : Costs n P (.ok a) := (Costs.ok h).le (Nat.zero_le n)

/-- The first of several steps, with a budget of `n`. -/
theorem Costs.step (k : Nat) {k' n : Nat} {P : α → Prop} {Q : β → Prop} {c : L α} {f : α → L β} (h : Costs k' P c)
    (hk : k' ≤ k ∧ k ≤ n) (hf : ∀ a, P a → Costs (n - k) Q (f a)) : Costs n Q (c >>= f) :=
  (Costs.bind (h.le hk.1) hf).le (by omega)

theorem Costs.branch {k l : Nat} {P : α → Prop} {c : Prop} [Decidable c] {t e : L α} (h1 : c → Costs k P t)
    (h2 : ¬ c → Costs l P e) : Costs (1 + max k l) P (Leak.branch c t e) := by
  by_cases hc : c
  · obtain ⟨k1, k2⟩ := h1 hc
    simp only [Leak.branch, hc, if_true]
    exact ⟨by rw [cost_cons]; simp only [weight]; omega, k2⟩
  · obtain ⟨k1, k2⟩ := h2 hc
    simp only [Leak.branch, hc, if_false]
    exact ⟨by rw [cost_cons]; simp only [weight]; omega, k2⟩

/-- Both cases within the same budget. -/
theorem Costs.cases {k : Nat} {P : α → Prop} {c : Prop} [Decidable c] {t e : L α} (h1 : c → Costs k P t)
    (h2 : ¬ c → Costs k P e) : Costs (1 + k) P (Leak.branch c t e) :=
  (Costs.branch h1 h2).le (by omega)

theorem Costs.iterate {n k : Nat} {I : α → Prop} {b : Nat → α → L α} {s : α} (h0 : I s)
    (hb : ∀ i, i < n → ∀ t, I t → Costs k I (b i t)) : Costs (n * k) I (Leak.iterate n b s) := by
  induction n with
  | zero => exact (Costs.ok h0).le (by omega)
  | succ n ih =>
    exact (Costs.bind (ih fun i hi => hb i (Nat.lt_succ_of_lt hi)) fun t ht => hb n (Nat.lt_succ_self n) t ht).le
      (by rw [Nat.succ_mul]; exact Nat.le_refl _)

theorem Costs.loop {n k : Nat} {I : α → Prop} {b : Nat → α → L α} {s : α} (h0 : I s)
    (hb : ∀ i, i < n → ∀ t, I t → Costs k I (b i t)) : Costs (n + n * k) I (Leak.loop n b s) := by
  obtain ⟨h1, h2⟩ := Costs.iterate h0 hb
  exact ⟨by simp only [Leak.loop]; rw [cost_cons]; simp only [weight]; omega, h2⟩

/-- A loop whose bodies have different numbers of steps. -/
theorem Costs.loopSum {n : Nat} (k : Nat → Nat) {I : Nat → α → Prop} {b : Nat → α → L α} {s : α} (h0 : I 0 s)
    (hb : ∀ i, i < n → ∀ t, I i t → Costs (k i) (I (i + 1)) (b i t)) :
    Costs (n + ((List.range n).map k).sum) (I n) (Leak.loop n b s) := by
  have key : ∀ m, m ≤ n → Costs (((List.range m).map k).sum) (I m) (Leak.iterate m b s) := by
    intro m
    induction m with
    | zero => intro _; exact Costs.ok h0
    | succ m ih =>
      intro hm
      refine (Costs.bind (ih (by omega)) fun t ht => hb m (by omega) t ht).le ?_
      rw [List.range_succ]; simp
  obtain ⟨h1, h2⟩ := key n (Nat.le_refl _)
  exact ⟨by simp only [Leak.loop]; rw [cost_cons]; simp only [weight]; omega, h2⟩

/-- A computation that succeeds with a list of the given length. -/
def okLen (n : Nat) : M (List α) → Bool
  | .ok b => decide (b.length = n)
  | .error _ => false

/-- From computations with the same events. -/
theorem Costs.ofTrace {k : Nat} {R : α → β → Prop} {c : L α} {d : L β} (h : Same R c d) (hd : cost d.trace ≤ k) : Costs k Free c :=
  ⟨by rw [h.1]; exact hd, fun _ _ => trivial⟩

theorem Costs.ofSame {k n : Nat} {c : L (List α)} {d : L (List β)} (h : Same Len c d)
    (hd : (decide (cost d.trace ≤ k) && okLen n d.res) = true) : Costs k (HasLen n) c := by
  rw [Bool.and_eq_true, decide_eq_true_eq] at hd
  refine ⟨by rw [h.1]; exact hd.1, fun a ha => ?_⟩
  have h1 := h.2
  have h2 := hd.2
  rw [ha] at h1
  cases hb : d.res with
  | ok b => rw [hb] at h1 h2; exact Eq.trans h1 (of_decide_eq_true h2)
  | error e => rw [hb] at h2; cases h2

/-! ## Sequences -/

namespace Seq

variable [Inhabited α]

theorem updateSub_costs {s : List α} {o : Nat} {v : List α} {i n : Nat} :
    Costs (2 + 3 * n) (HasLen s.length) (updateSub s o v i n) := by
  unfold updateSub
  refine (Costs.bind .require fun _ _ => Costs.bind .require fun _ _ =>
    Costs.loop (I := HasLen s.length) rfl fun i _ t ht => Costs.bind .idx fun x _ => (Costs.setIdx).mono (Nat.le_refl _) fun a ha => ?_).le
    (by omega)
  rw [HasLen] at *; omega

/-- The same bounded by the length of the target: longer sources panic. -/
theorem updateStart_costs' {s v : List α} : Costs (2 + 3 * s.length) (HasLen s.length) (updateStart s v) := by
  by_cases h : v.length ≤ s.length
  · exact (updateSub_costs (s := s) (o := 0) (v := v) (i := 0) (n := v.length)).le (by omega)
  · unfold updateStart updateSub
    refine Costs.step 1 .require (by omega) fun _ h' => ?_
    exact absurd h' (by omega)

theorem update_costs {s : List α} {o : Nat} {v : List α} : Costs (2 + 3 * v.length) (HasLen s.length) (update s o v) :=
  updateSub_costs

theorem updateStart_costs {s v : List α} : Costs (2 + 3 * v.length) (HasLen s.length) (updateStart s v) := updateSub_costs

theorem fromSub_costs {v : List α} {i n : Nat} : Costs (2 + 3 * n) (HasLen n) (fromSub v i n) :=
  updateSub_costs.mono (Nat.le_refl _) fun a ha => by simpa [Hacspec.Seq.new] using ha

theorem fromSubRange_costs {v : List α} {i j : Nat} : Costs (3 + 3 * (j - i)) (HasLen (j - i)) (fromSubRange v i j) := by
  unfold fromSubRange
  exact (Costs.bind .require fun _ _ => fromSub_costs).le (by omega)

theorem subr_costs {v : List α} {i j : Nat} : Costs (3 + 3 * (j - i)) (HasLen (j - i)) (subr v i j) := by
  unfold subr
  exact (Costs.bind .require fun _ _ => fromSub_costs).le (by omega)

theorem numChunks_costs {v : List α} {c : Nat} : Costs 3 (fun n => n = (v.length + c - 1) / c) (numChunks v c) := by
  unfold numChunks
  exact Costs.bind (k := 1) (l := 2) .require fun _ _ => Costs.bind (k := 1) (l := 1) .require fun _ _ =>
    Costs.bind (k := 1) (l := 0) .require fun _ _ => Costs.ok rfl

theorem getChunkLen_costs {v : List α} {c i : Nat} :
    Costs 2 (fun n => n = min c (v.length - c * i)) (getChunkLen v c i) := by
  unfold getChunkLen
  refine (Costs.branch (fun h => Costs.bind .require fun _ h' => Costs.ok ?_) fun h => Costs.ok ?_).le (by omega)
  · omega
  · omega

theorem getChunk_costs {v : List α} {c i : Nat} : Costs (4 + 3 * min c (v.length - c * i))
    (fun r => r.1 = min c (v.length - c * i) ∧ r.2.length = min c (v.length - c * i)) (getChunk v c i) := by
  unfold getChunk
  refine (Costs.bind getChunkLen_costs fun n hn => ?_).le (by omega : 2 + (2 + 3 * min c (v.length - c * i)) ≤ _)
  subst hn
  exact (Costs.bind fromSub_costs fun l hl => Costs.ok ⟨rfl, hl⟩).le (by omega)

theorem setChunk_costs {v x : List α} {c i : Nat} : Costs (5 + 3 * min c (v.length - c * i)) (HasLen v.length) (setChunk v c i x) := by
  unfold setChunk
  refine (Costs.bind getChunkLen_costs fun n hn => ?_).le (by omega : 2 + (3 + 3 * min c (v.length - c * i)) ≤ _)
  subst hn
  exact (Costs.bind .require fun _ _ => updateSub_costs).le (by omega)

theorem copyStep_costs {x t : List α} {i n : Nat} (h : t.length = n) : Costs 2 (HasLen n) (copyStep x i t) := by
  unfold copyStep
  exact (Costs.bind .idx fun _ _ => (Costs.setIdx).mono (Nat.le_refl _) fun a (ha : _ = _) => ha.trans h).le (by omega)

theorem copy_costs {x : List α} {l : Nat} : Costs (3 * x.length) (HasLen l) (loop x.length (copyStep x) (Hacspec.Seq.new l)) :=
  (Costs.loop (I := HasLen l) (by simp [HasLen, Hacspec.Seq.new]) fun _ _ _ ht => copyStep_costs ht).le (by omega)

theorem fromSeq_costs {x : List α} : Costs (3 * x.length) (HasLen x.length) (fromSeq x) := copy_costs

theorem arrFromSlice_costs {l : Nat} {x : List α} : Costs (1 + 3 * x.length) (HasLen l) (arrFromSlice l x) := by
  unfold arrFromSlice
  exact Costs.bind .require fun _ _ => copy_costs

theorem arrFromSub_costs {l : Nat} {x : List α} {i n : Nat} : Costs (3 + 3 * l) (HasLen l) (arrFromSub l x i n) := by
  unfold arrFromSub
  refine (Costs.bind .require fun _ h => ?_).le (by omega : 1 + (2 + 3 * l) ≤ _)
  subst h
  exact fromSub_costs

theorem arrFromSubRange_costs {l : Nat} {x : List α} {i j : Nat} : Costs (4 + 3 * l) (HasLen l) (arrFromSubRange l x i j) := by
  unfold arrFromSubRange
  exact (Costs.bind .require fun _ _ => arrFromSub_costs).le (by omega)

theorem arrFromVec_costs {l : Nat} {x : List α} : Costs (1 + 3 * l) (HasLen l) (arrFromVec l x) := by
  unfold arrFromVec
  exact Costs.bind .require fun _ h => by subst h; exact copy_costs

theorem arrFromSeq_costs {l : Nat} {x : List α} : Costs (1 + 3 * l) (HasLen l) (arrFromSeq l x) := by
  unfold arrFromSeq
  exact Costs.bind .require fun _ h => by subst h; exact copy_costs

theorem arrFromPublicSlice_costs {w l : Nat} {x : List (BitVec w)} :
    Costs (2 + 3 * l) (HasLen l) (arrFromPublicSlice l x) := by
  unfold arrFromPublicSlice
  exact (Costs.bind .require fun _ _ => arrFromVec_costs).le (by omega)

theorem wordToLeBytes_costs {w : Nat} {x : BitVec w} : Costs (1 + 3 * (w / 8)) (HasLen (w / 8)) (wordToLeBytes x) :=
  arrFromVec_costs

theorem wordToBeBytes_costs {w : Nat} {x : BitVec w} : Costs (1 + 3 * (w / 8)) (HasLen (w / 8)) (wordToBeBytes x) :=
  arrFromVec_costs

end Seq

theorem VecInt.arrXorSecret_costs {w l : Nat} {a b : List (BitVec w)} :
    Costs (4 * a.length) (HasLen l) (VecInt.arrXorSecret l a b) := by
  unfold VecInt.arrXorSecret VecInt.zipLoop
  refine (Costs.loop (I := HasLen l) (by simp [HasLen, Hacspec.Seq.new]) fun i _ t ht => Costs.bind .idx fun _ _ => Costs.bind .idx
    fun _ _ => Costs.bind (P := Free) (Costs.ok trivial) fun _ _ => (Costs.setIdx).mono (Nat.le_refl _)
    fun a (ha : _ = _) => ha.trans ht).le (by omega)

end Hacspec.Leak
