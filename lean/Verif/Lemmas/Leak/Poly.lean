import Verif.Model.Leak.MachineInt
import Verif.Lemmas.Leak.Base

/-! # Events of the functions of `poly.rs` -/

namespace Hacspec.Leak

/-- Two computations that both succeed cause the same events, and their values are related. -/
def SameOk {α β : Type} (R : α → β → Prop) (c : L α) (d : L β) : Prop :=
  ∀ a b, c.res = .ok a → d.res = .ok b → c.trace = d.trace ∧ R a b

section
variable {α β γ δ : Type}

theorem Same.sameOk {R : α → β → Prop} {c : L α} {d : L β} (h : Same R c d) : SameOk R c d := by
  intro a b ha hb
  have := h.2
  rw [ha, hb] at this
  exact ⟨h.1, this⟩

theorem SameOk.bind {R : α → β → Prop} {S : γ → δ → Prop} {c : L α} {d : L β} {f : α → L γ} {g : β → L δ}
    (h : SameOk R c d) (hf : ∀ a b, R a b → SameOk S (f a) (g b)) : SameOk S (c >>= f) (d >>= g) := by
  intro a b ha hb
  rw [res_bind] at ha hb
  obtain ⟨u, hu, ha⟩ := bind_eq_ok.1 ha
  obtain ⟨v, hv, hb⟩ := bind_eq_ok.1 hb
  obtain ⟨h1, h2⟩ := h u v hu hv
  obtain ⟨h3, h4⟩ := hf u v h2 a b ha hb
  exact ⟨by rw [trace_bind_ok hu, trace_bind_ok hv, h1, h3], h4⟩

theorem SameOk.ok {R : α → β → Prop} {a : α} {b : β} (h : R a b) : SameOk R (.ok a) (.ok b) := (Same.ok h).sameOk

theorem SameOk.lift (x : M α) (y : M β) : SameOk Any (Leak.lift x) (Leak.lift y) := fun _ _ _ _ => ⟨rfl, trivial⟩

theorem SameOk.loop {R : α → β → Prop} {n n' : Nat} {b : Nat → α → L α} {b' : Nat → β → L β} {s : α} {s' : β}
    (hn : n = n') (h0 : R s s') (hb : ∀ i, i < n → ∀ t t', R t t' → SameOk R (b i t) (b' i t')) :
    SameOk R (Leak.loop n b s) (Leak.loop n' b' s') := by
  subst hn
  have key : ∀ k, k ≤ n → SameOk R (Leak.iterate k b s) (Leak.iterate k b' s') := by
    intro k
    induction k with
    | zero => exact fun _ => SameOk.ok h0
    | succ k ih => exact fun hk => SameOk.bind (ih (by omega)) fun t t' ht => hb k (by omega) t t' ht
  intro x y hx hy
  obtain ⟨h1, h2⟩ := key n (Nat.le_refl n) x y hx hy
  exact ⟨by simp only [Leak.loop, h1], h2⟩

end

namespace Poly

open Hacspec.MachineInt (addModU mulModU)
open Hacspec.Poly (normalize numSecU)

variable {w : Nat}

/-! ## Forgetting the events -/

theorem res_leadLoop (i : Nat) (x : List (BitVec w)) (s : Nat × BitVec w) :
    (leadLoop i x s).res = .ok (Hacspec.Poly.leadLoop i x s) := by
  induction x generalizing i s with
  | nil => rfl
  | cons c cs ih =>
    rw [leadLoop, Hacspec.Poly.leadLoop, res_bind, res_branch]
    split <;> simp [ih]

theorem res_leadingCoefficient (x : List (BitVec w)) :
    (leadingCoefficient x).res = .ok (Hacspec.Poly.leadingCoefficient x) := by
  simp [leadingCoefficient, Hacspec.Poly.leadingCoefficient, res_leadLoop]

theorem res_zipM (op : BitVec w → BitVec w → L (BitVec w)) (x y : List (BitVec w)) :
    (zipM op x y).res = Hacspec.Poly.zipM (fun b c => (op b c).res) x y := by
  induction x generalizing y with
  | nil => cases y <;> rfl
  | cons b bs ih =>
    cases y with
    | nil => rfl
    | cons c cs => simp [zipM, Hacspec.Poly.zipM, ih]

theorem res_polyAdd (x y : List (BitVec w)) (n : BitVec w) :
    (polyAdd x y n).res = Hacspec.Poly.polyAdd numSecU x y n := by
  simp [polyAdd, Hacspec.Poly.polyAdd, res_zipM]
  rfl

theorem res_polyMulPlain (x y : List (BitVec w)) : (polyMulPlain x y).res = Hacspec.Poly.polyMulPlain numSecU x y := by
  simp [polyMulPlain, Hacspec.Poly.polyMulPlain]

theorem res_polyMulOpScanning (x y : List (BitVec w)) (n : BitVec w) :
    (polyMulOpScanning x y n).res = Hacspec.Poly.polyMulOpScanning numSecU x y n := by
  simp [polyMulOpScanning, Hacspec.Poly.polyMulOpScanning]
  rfl

theorem res_forNonzero {σ : Type} (i : Nat) (x : List (BitVec w)) (f : Nat × BitVec w → σ → L σ) (s : σ) :
    (forNonzero i x f s).res = Hacspec.Poly.forEach (Hacspec.Poly.nonzeros i x) (fun a s => (f a s).res) s := by
  induction x generalizing i s with
  | nil => rfl
  | cons c cs ih =>
    rw [forNonzero, Hacspec.Poly.nonzeros, res_bind, res_branch]
    split
    · simp [Hacspec.Poly.forEach, ih]
    · simp [ih]

theorem res_mulStep (n : BitVec w) (a b : Nat × BitVec w) (out : List (BitVec w)) :
    (mulStep n a b out).res = Hacspec.Poly.mulStep numSecU n a b out := by
  simp [mulStep, Hacspec.Poly.mulStep]
  rfl

theorem res_polyMul (x y : List (BitVec w)) (n : BitVec w) :
    (polyMul x y n).res = Hacspec.Poly.polyMul numSecU x y n := by
  simp [polyMul, Hacspec.Poly.polyMul, res_forNonzero, res_mulStep]

/-! ## Functions whose events depend on the lengths -/

theorem trace_leadLoop (i : Nat) (x : List (BitVec w)) (s : Nat × BitVec w) :
    (leadLoop i x s).trace = x.map fun c => .branch (decide (c ≠ 0#w)) := by
  induction x generalizing i s with
  | nil => rfl
  | cons c cs ih =>
    rw [leadLoop, trace_bind_ok (a := if c ≠ 0#w then (i, c) else s) (by rw [res_branch]; split <;> rfl), ih]
    simp only [branch]
    split <;> simp

theorem trace_leadingCoefficient (x : List (BitVec w)) :
    (leadingCoefficient x).trace = .times x.length :: x.map fun c => .branch (decide (c ≠ 0#w)) := by
  rw [leadingCoefficient, trace_bind_ok (a := ()) rfl, trace_leadLoop]; rfl

theorem length_normalize (x y : List (BitVec w)) :
    (normalize x y).1.length = max x.length y.length ∧ (normalize x y).2.length = max x.length y.length := by
  simp [normalize, Hacspec.Poly.pad]
  omega

theorem sameOk_zipM {op op' : BitVec w → BitVec w → L (BitVec w)} (h : ∀ a b c d, SameOk Any (op a b) (op' c d))
    (x y x' y' : List (BitVec w)) (h1 : Len x x') (h2 : Len y y') : SameOk Len (zipM op x y) (zipM op' x' y') := by
  induction x generalizing y x' y' with
  | nil =>
    obtain rfl : x' = [] := List.length_eq_zero_iff.1 h1.symm
    cases y <;> cases y' <;> exact SameOk.ok Len.nil
  | cons b bs ih =>
    obtain ⟨b', bs', rfl⟩ := List.exists_cons_of_length_eq_add_one (n := bs.length) (l := x') (by
      simpa [Len] using h1.symm)
    cases y with
    | nil =>
      obtain rfl : y' = [] := List.length_eq_zero_iff.1 h2.symm
      exact SameOk.ok Len.nil
    | cons c cs =>
      obtain ⟨c', cs', rfl⟩ := List.exists_cons_of_length_eq_add_one (n := cs.length) (l := y') (by
        simpa [Len] using h2.symm)
      rw [zipM, zipM]
      refine SameOk.bind (h b c b' c') fun _ _ _ => ?_
      refine SameOk.bind (ih cs bs' cs' (by simpa [Len] using h1) (by simpa [Len] using h2)) fun _ _ hl => ?_
      exact SameOk.ok (Len.cons hl)

theorem sameOk_polyAdd (x y x' y' : List (BitVec w)) (n : BitVec w) (h1 : x.length = x'.length)
    (h2 : y.length = y'.length) : SameOk Len (polyAdd x y n) (polyAdd x' y' n) := by
  have l := length_normalize x y
  have l' := length_normalize x' y'
  rw [polyAdd, polyAdd]
  refine SameOk.bind (Same.require (by rw [l.1, l.2, l'.1, l'.2]; simp)).sameOk fun _ _ _ => ?_
  refine SameOk.bind (Same.count (by rw [l.1, l'.1, h1, h2])).sameOk fun _ _ _ => ?_
  refine sameOk_zipM ?_ _ _ _ _ (by unfold Len; rw [l.1, l'.1, h1, h2]) (by unfold Len; rw [l.2, l'.2, h1, h2])
  intro a b c d
  by_cases hn : n = 0#w
  · intro u v _ _
    simp [branch, hn, Any, Leak.lift]
  · intro u v _ _
    simp [branch, hn, Any, Leak.lift]

theorem zipM_total {op : BitVec w → BitVec w → M (BitVec w)} (h : ∀ a b, ∃ c, op a b = .ok c) (x y : List (BitVec w)) :
    ∃ z, Hacspec.Poly.zipM op x y = .ok z := by
  induction x generalizing y with
  | nil => exact ⟨[], by cases y <;> rfl⟩
  | cons b bs ih =>
    cases y with
    | nil => exact ⟨[], rfl⟩
    | cons c cs =>
      obtain ⟨a, ha⟩ := h b c
      obtain ⟨z, hz⟩ := ih cs
      exact ⟨a :: z, by rw [Hacspec.Poly.zipM, ha, bind_ok, hz, bind_ok]⟩

theorem polyAdd_zero_ok (x y : List (BitVec w)) : ∃ z, (polyAdd x y 0#w).res = .ok z := by
  have l := length_normalize x y
  obtain ⟨z, hz⟩ := zipM_total (op := fun b c => if (0#w : BitVec w) = 0#w then (numSecU : Hacspec.Poly.NumOps w).add b c
    else (numSecU : Hacspec.Poly.NumOps w).addMod b c 0#w)
    (fun a b => ⟨_, if_pos rfl⟩) (normalize x y).1 (normalize x y).2
  refine ⟨z, ?_⟩
  rw [res_polyAdd, Hacspec.Poly.polyAdd]
  show (Hacspec.require ((normalize x y).1.length = (normalize x y).2.length) >>= fun _ => _) = _
  rw [Hacspec.require_true (by rw [l.1, l.2]), bind_ok]
  exact hz

theorem same_polyMulPlain (x y x' y' : List (BitVec w)) (h1 : x.length = x'.length) (h2 : y.length = y'.length) :
    Same Len (polyMulPlain x y) (polyMulPlain x' y') := by
  rw [polyMulPlain, polyMulPlain]
  refine Same.loop h1 (by simp [Len, h1, h2]) fun i _ out out' ho => ?_
  refine Same.loop h2 ho fun j _ out out' ho => ?_
  refine Same.bind (Same.idx ho rfl) fun _ _ _ => ?_
  refine Same.bind (Same.idx (l := x) (l' := x') h1 rfl) fun _ _ _ => ?_
  refine Same.bind (Same.idx (l := y) (l' := y') h2 rfl) fun _ _ _ => ?_
  refine Same.bind (R := Any) (Same.lift True.intro) fun _ _ _ => ?_
  refine Same.bind (R := Any) (Same.lift True.intro) fun _ _ _ => ?_
  exact Same.setIdx ho rfl

theorem sameOk_polyMulOpScanning (x y x' y' : List (BitVec w)) (n : BitVec w) (h1 : x.length = x'.length)
    (h2 : y.length = y'.length) : SameOk Len (polyMulOpScanning x y n) (polyMulOpScanning x' y' n) := by
  rw [polyMulOpScanning, polyMulOpScanning]
  refine SameOk.loop h1 (by simp [Len, h1, h2]) fun i _ out out' ho => ?_
  refine SameOk.loop h2 ho fun j _ out out' ho => ?_
  refine SameOk.bind (Same.idx ho rfl).sameOk fun _ _ _ => ?_
  refine SameOk.bind (Same.idx (l := x) (l' := x') h1 rfl).sameOk fun _ _ _ => ?_
  refine SameOk.bind (Same.idx (l := y) (l' := y') h2 rfl).sameOk fun _ _ _ => ?_
  refine SameOk.bind (SameOk.lift _ _) fun _ _ _ => ?_
  refine SameOk.bind (SameOk.lift _ _) fun _ _ _ => ?_
  exact (Same.setIdx ho rfl).sameOk

/-! ## `poly_mul` -/

/-- The events of a row. -/
def rowEv (i : Nat) : Nat → List (BitVec w) → List Ev
  | _, [] => []
  | j, d :: ds => if d ≠ 0#w then .branch true :: .read (i + j) :: .write (i + j) :: rowEv i (j + 1) ds
    else .branch false :: rowEv i (j + 1) ds

/-- The events of all rows. -/
def rowsEv (y : List (BitVec w)) : Nat → List (BitVec w) → List Ev
  | _, [] => []
  | i, c :: cs => if c ≠ 0#w then .branch true :: .times y.length :: (rowEv i 0 y ++ rowsEv y (i + 1) cs)
    else .branch false :: rowsEv y (i + 1) cs

theorem trace_mulStep {n : BitVec w} {a b : Nat × BitVec w} {out : List (BitVec w)} {z : List (BitVec w)}
    (h : (mulStep n a b out).res = .ok z) : (mulStep n a b out).trace = [.read (a.1 + b.1), .write (a.1 + b.1)] := by
  rw [mulStep, res_bind] at h
  obtain ⟨o, ho, h⟩ := bind_eq_ok.1 h
  rw [res_bind] at h
  obtain ⟨p, hp, h⟩ := bind_eq_ok.1 h
  rw [res_bind] at h
  obtain ⟨s, hs, h⟩ := bind_eq_ok.1 h
  rw [mulStep, trace_bind_ok ho, trace_bind_ok hp, trace_bind_ok hs]
  rfl

theorem trace_row {n : BitVec w} {i : Nat} {c : BitVec w} (j : Nat) (y : List (BitVec w)) (out z : List (BitVec w))
    (h : (forNonzero j y (fun b out => mulStep n (i, c) b out) out).res = .ok z) :
    (forNonzero j y (fun b out => mulStep n (i, c) b out) out).trace = rowEv i j y := by
  induction y generalizing j out with
  | nil => rfl
  | cons d ds ih =>
    rw [forNonzero] at h ⊢
    rw [res_bind] at h
    obtain ⟨s, hs, h⟩ := bind_eq_ok.1 h
    rw [trace_bind_ok hs, ih _ _ h, rowEv]
    rw [res_branch] at hs
    by_cases hd : d ≠ 0#w
    · rw [if_pos hd] at hs ⊢
      simp [branch, hd, trace_mulStep hs]
    · rw [if_neg hd] at hs ⊢
      simp only [branch, if_neg hd]
      simp [Decidable.not_not.1 hd]

theorem trace_rows {n : BitVec w} {y : List (BitVec w)} (i : Nat) (x : List (BitVec w)) (out z : List (BitVec w))
    (h : (forNonzero i x (fun a out => Seq.count y.length >>= fun _ =>
      forNonzero 0 y (fun b out => mulStep n a b out) out) out).res = .ok z) :
    (forNonzero i x (fun a out => Seq.count y.length >>= fun _ =>
      forNonzero 0 y (fun b out => mulStep n a b out) out) out).trace = rowsEv y i x := by
  induction x generalizing i out with
  | nil => rfl
  | cons c cs ih =>
    rw [forNonzero] at h ⊢
    rw [res_bind] at h
    obtain ⟨s, hs, h⟩ := bind_eq_ok.1 h
    rw [trace_bind_ok hs, ih _ _ h, rowsEv]
    rw [res_branch] at hs
    by_cases hc : c ≠ 0#w
    · rw [if_pos hc] at hs ⊢
      rw [res_bind] at hs
      obtain ⟨u, hu, hs⟩ := bind_eq_ok.1 hs
      simp only [branch, if_pos hc]
      rw [trace_bind_ok hu, trace_row _ _ _ _ hs]
      simp [hc, Seq.count]
    · rw [if_neg hc] at hs ⊢
      simp only [branch, if_neg hc]
      simp [Decidable.not_not.1 hc]

theorem trace_polyMul {x y : List (BitVec w)} {n : BitVec w} {z : List (BitVec w)} (h : (polyMul x y n).res = .ok z) :
    (polyMul x y n).trace = .times x.length :: rowsEv y 0 x := by
  rw [polyMul, res_bind] at h
  obtain ⟨u, hu, h⟩ := bind_eq_ok.1 h
  rw [polyMul, trace_bind_ok hu, trace_rows _ _ _ _ h]
  rfl

theorem rowEv_inj (i : Nat) (j : Nat) (y y' : List (BitVec w)) (t t' : List Ev) (hl : y.length = y'.length)
    (h : rowEv i j y ++ t = rowEv i j y' ++ t') :
    y.map (fun d => decide (d = 0#w)) = y'.map (fun d => decide (d = 0#w)) ∧ t = t' := by
  induction y generalizing j y' with
  | nil =>
    obtain rfl : y' = [] := List.length_eq_zero_iff.1 hl.symm
    exact ⟨rfl, h⟩
  | cons d ds ih =>
    obtain ⟨d', ds', rfl⟩ := List.exists_cons_of_length_eq_add_one (n := ds.length) (l := y') (by simpa using hl.symm)
    rw [rowEv, rowEv] at h
    by_cases hd : d = 0#w <;> by_cases hd' : d' = 0#w <;> simp [hd, hd'] at h ⊢ <;>
      exact (ih (j + 1) ds' (by simpa using hl) h)

theorem rowEv_congr (i : Nat) (j : Nat) (y y' : List (BitVec w))
    (h : y.map (fun d => decide (d = 0#w)) = y'.map (fun d => decide (d = 0#w))) : rowEv i j y = rowEv i j y' := by
  induction y generalizing j y' with
  | nil =>
    obtain rfl : y' = [] := by simpa using h.symm
    rfl
  | cons d ds ih =>
    obtain ⟨d', ds', rfl⟩ : ∃ d' ds', y' = d' :: ds' := by cases y' <;> simp at h ⊢
    rw [List.map_cons, List.map_cons, List.cons.injEq, decide_eq_decide] at h
    rw [rowEv, rowEv, ih (j + 1) ds' h.2]
    by_cases hd : d = 0#w
    · simp [hd, h.1.1 hd]
    · have : d' ≠ 0#w := fun k => hd (h.1.2 k)
      simp [hd, this]

theorem rowsEv_iff (y y' : List (BitVec w)) (hy : y.length = y'.length) (i : Nat) (x x' : List (BitVec w))
    (hx : x.length = x'.length) : rowsEv y i x = rowsEv y' i x' ↔
    x.map (fun d => decide (d = 0#w)) = x'.map (fun d => decide (d = 0#w)) ∧
    ((∃ c ∈ x, c ≠ 0#w) → y.map (fun d => decide (d = 0#w)) = y'.map (fun d => decide (d = 0#w))) := by
  induction x generalizing i x' with
  | nil =>
    obtain rfl : x' = [] := List.length_eq_zero_iff.1 hx.symm
    simp [rowsEv]
  | cons c cs ih =>
    obtain ⟨c', cs', rfl⟩ := List.exists_cons_of_length_eq_add_one (n := cs.length) (l := x') (by simpa using hx.symm)
    have ih' := ih (i + 1) cs' (by simpa using hx)
    rw [rowsEv, rowsEv]
    by_cases hc : c = 0#w
    · by_cases hc' : c' = 0#w
      · simp only [hc, hc', ne_eq, not_true_eq_false, if_false, List.cons.injEq, true_and, List.map_cons, ih']
        simp
      · simp [hc, hc']
    · by_cases hc' : c' = 0#w
      · simp [hc, hc']
      · simp only [ne_eq, hc, hc', not_false_eq_true, if_true, List.cons.injEq, true_and, List.map_cons,
          decide_false, Ev.times.injEq, hy]
        constructor
        · intro h
          obtain ⟨h1, h2⟩ := rowEv_inj i 0 y y' _ _ hy h
          exact ⟨(ih'.1 h2).1, fun _ => h1⟩
        · intro ⟨h1, h2⟩
          have h3 := h2 ⟨c, List.mem_cons_self, hc⟩
          rw [rowEv_congr i 0 y y' h3, ih'.2 ⟨h1, fun _ => h3⟩]

end Poly

end Hacspec.Leak
