import Verif.Model.Leak.MachineInt
import Verif.Lemmas.Leak.Base
import Verif.Lemmas.EuclidChecked
import Verif.Lemmas.MachineInt

/-! # Events of the machine-integer library and of polynomials -/

namespace Hacspec.Leak

open SecretInt Hacspec.MachineInt

theorem res_whileL {σ : Type} (fuel : Nat) (cond : σ → Bool) (body : σ → L σ) (s : σ) :
    (whileL fuel cond body s).res = whileM fuel cond (fun s => (body s).res) s := by
  induction fuel generalizing s with
  | zero => rfl
  | succ f ih =>
    rw [whileL, whileM, res_branch, res_bind]
    cases cond s <;> simp [ih]

theorem whileL_step {σ : Type} {f : Nat} {cond : σ → Bool} {body : σ → L σ} {s : σ} (h : cond s = true) :
    (whileL (f + 1) cond body s).trace = .branch true :: (body s >>= whileL f cond body).trace := by
  simp [whileL, branch, h]

theorem whileL_done {σ : Type} {f : Nat} {cond : σ → Bool} {body : σ → L σ} {s : σ} (hf : 0 < f) (h : cond s = false) :
    (whileL f cond body s).trace = [.branch false] := by
  cases f with
  | zero => omega
  | succ f => simp [whileL, branch, h]

theorem trace_bind_lift {α β : Type} {x : M α} {f : α → L β} {a : α} (h : x = .ok a) :
    (lift x >>= f).trace = (f a).trace := by
  rw [trace_bind_ok (c := lift x) (a := a) h]; rfl

theorem trace_bind_err {α β : Type} {c : L α} {f : α → L β} {e : Fail} (h : c.res = .error e) :
    (c >>= f).trace = c.trace := by
  rw [bind_def, L.bind, h]

theorem trace_then_lift {α β : Type} {c : L α} (f : α → M β) : (c >>= fun a => lift (f a)).trace = c.trace := by
  rw [bind_def, L.bind]
  cases c.res <;> simp [lift]

namespace MachineInt

variable {w : Nat}

/-! ## Forgetting the events -/

theorem res_getBit (O : IntOps w) (x : BitVec w) (i : Nat) :
    (getBit O x i).res = Hacspec.MachineInt.getBit O x i := by
  simp [getBit, Hacspec.MachineInt.getBit]

theorem res_setBit (x b : BitVec w) (i : Nat) : (setBit x b i).res = Hacspec.MachineInt.setBit x b i := by
  simp only [setBit, Hacspec.MachineInt.setBit, res_bind, res_require, res_lift, res_ok]

theorem res_set (O : IntOps w) (x : BitVec w) (p : Nat) (y : BitVec w) (i : Nat) :
    (set O x p y i).res = Hacspec.MachineInt.set O x p y i := by
  simp only [set, Hacspec.MachineInt.set, res_bind, res_getBit, res_setBit]

theorem res_csetBit (x b : BitVec w) (i : Nat) (c : BitVec w) :
    (csetBit x b i c).res = Hacspec.MachineInt.csetBit x b i c := by
  simp only [csetBit, Hacspec.MachineInt.csetBit, res_bind, res_setBit, res_ok]

theorem res_ctDivStep (O : IntOps w) (a d : BitVec w) (i : Nat) (qr : BitVec w × BitVec w) :
    (ctDivStep O a d i qr).res = Hacspec.MachineInt.ctDivStep O a d i qr := by
  simp only [ctDivStep, Hacspec.MachineInt.ctDivStep, res_bind, res_set, res_csetBit, res_lift, res_ok]

theorem res_ctDiv (O : IntOps w) (a d : BitVec w) : (ctDiv O a d).res = Hacspec.MachineInt.ctDiv O a d := by
  simp only [ctDiv, Hacspec.MachineInt.ctDiv, res_loop, res_ctDivStep]

theorem res_secPow (x : BitVec w) (e : Nat) : (secPow x e).res = Hacspec.MachineInt.secPow x e := by
  simp only [secPow, Hacspec.MachineInt.secPow, res_branch, res_loop, res_ok]

theorem res_subModU (x y n : BitVec w) : (subModU x y n).res = Hacspec.MachineInt.subModU x y n := by
  simp only [subModU, Hacspec.MachineInt.subModU, res_bind, res_whileL, res_lift]

theorem res_signedMod (x n : Int) : (signedMod x n).res = Hacspec.MachineInt.signedMod x n := by
  simp only [signedMod, Hacspec.MachineInt.signedMod, res_bind, res_whileL, res_lift]

theorem res_subAdd (O : IntOps w) (n s p : BitVec w) : (subAdd O n s p).res = Hacspec.MachineInt.subAdd O n s p := by
  simp only [subAdd, Hacspec.MachineInt.subAdd, res_bind, res_whileL, res_lift]

theorem res_euclidStep (O : IntOps w) (n : BitVec w) (s : EState w) :
    (euclidStep O n s).res = Hacspec.MachineInt.euclidStep O n s := by
  simp only [euclidStep, Hacspec.MachineInt.euclidStep, res_bind, res_subAdd, res_lift, res_ok]

theorem res_euclidInvert (O : IntOps w) (x n : BitVec w) :
    (euclidInvert O x n).res = Hacspec.MachineInt.euclidInvert O x n := by
  simp only [euclidInvert, Hacspec.MachineInt.euclidInvert, res_bind, res_whileL, res_euclidStep, res_branch, res_lift,
    res_ok, res_panic]

/-! ## `ct_div` -/

theorem trace_setBit (x b : BitVec w) (i : Nat) (hb : b = 1#w ∨ b = 0#w) : (setBit x b i).trace = [.branch true] := by
  rw [setBit, trace_bind_ok (c := require _) (a := ()) (by rw [res_require, Hacspec.require_true hb])]
  have : ∀ y : M (BitVec 128), (lift y >>= fun one128 => lift (shl b i) >>= fun tmp2 =>
      L.ok ((x &&& fromLiteral w (~~~ one128)) ||| tmp2)).trace = [] := by
    intro y
    rw [bind_def, L.bind]
    cases y with
    | error e => rfl
    | ok v =>
      simp only [res_lift]
      rw [bind_def, L.bind]
      cases h : shl b i <;> simp [lift]
  rw [this]
  simp [require, hb]

theorem trace_ctDivStep (hw1 : 1 < w) {O : IntOps w} (hO : IsUnsigned O) (a d : BitVec w) (i : Nat) (hi : i < w)
    (hw : w ≤ 128) (qr : BitVec w × BitVec w) : (ctDivStep O a d i qr).trace = [.branch true, .branch true] := by
  have hs : shl qr.2 1 = .ok (qr.2 <<< 1) := by simp [shl, hw1]
  have hg := getBit_eq O (Or.inl hO.shr) a i hi
  have hbit : (if a.getLsbD i then 1#w else 0#w) = 1#w ∨ (if a.getLsbD i then 1#w else 0#w) = 0#w := by
    split <;> simp
  obtain ⟨r, hr⟩ : ∃ r, Hacspec.MachineInt.setBit (qr.2 <<< 1) (if a.getLsbD i then 1#w else 0#w) 0 = .ok r := by
    simp only [Hacspec.MachineInt.setBit, Hacspec.require_true hbit, bind_ok, shl, show 0 < 128 by omega,
      show 0 < w by omega, if_true]
    exact ⟨_, rfl⟩
  have hset : Hacspec.MachineInt.set O (qr.2 <<< 1) 0 a i = .ok r := by
    rw [Hacspec.MachineInt.set, hg, bind_ok, hr]
  have htr : (set O (qr.2 <<< 1) 0 a i).trace = [.branch true] := by
    rw [set, trace_bind_ok (c := getBit O a i) (by rw [res_getBit, hg]), trace_setBit _ _ _ hbit]
    have : (getBit O a i).trace = [] := by
      rw [getBit, bind_def, L.bind]; cases h : O.shr a i <;> simp [lift]
    rw [this]; rfl
  rw [ctDivStep, trace_bind_lift hs, trace_bind_ok (c := set O _ 0 a i) (by rw [res_set, hset]), htr,
    trace_bind_lift (hO.gteBm (by omega) r d)]
  generalize (if d.toNat ≤ r.toNat then BitVec.allOnes w else 0#w) = g
  obtain ⟨q, hq⟩ : ∃ q, Hacspec.MachineInt.setBit qr.1 1#w i = .ok q := by
    simp only [Hacspec.MachineInt.setBit, Hacspec.require_true (Or.inl rfl), bind_ok, shl, show i < 128 by omega, hi, if_true]
    exact ⟨_, rfl⟩
  have hc : (csetBit qr.1 1#w i g).trace = [.branch true] := by
    rw [csetBit, trace_bind_ok (c := setBit _ _ _) (by rw [res_setBit, hq]), trace_setBit _ _ _ (Or.inl rfl)]; rfl
  rw [trace_bind_ok (c := csetBit _ _ _ _) (a := (cswap qr.1 q g).1) (by
    rw [res_csetBit, Hacspec.MachineInt.csetBit, hq, bind_ok]), hc]
  rfl

theorem ctDivStep_ok (hw1 : 1 < w) {O : IntOps w} (hO : IsUnsigned O) (a d : BitVec w) (i : Nat) (hi : i < w)
    (hw : w ≤ 128) (qr : BitVec w × BitVec w) : ∃ p, Hacspec.MachineInt.ctDivStep O a d i qr = .ok p := by
  have hs : shl qr.2 1 = .ok (qr.2 <<< 1) := by simp [shl, hw1]
  have hg := getBit_eq O (Or.inl hO.shr) a i hi
  have hbit : (if a.getLsbD i then 1#w else 0#w) = 1#w ∨ (if a.getLsbD i then 1#w else 0#w) = 0#w := by
    split <;> simp
  simp only [Hacspec.MachineInt.ctDivStep, hs, bind_ok, Hacspec.MachineInt.set, hg, Hacspec.MachineInt.setBit,
    Hacspec.require_true hbit, shl, show 0 < 128 by omega, show 0 < w by omega, if_true,
    hO.gteBm (show 0 < w by omega), Hacspec.MachineInt.csetBit,
    Hacspec.require_true (Or.inl rfl : (1#w = 1#w ∨ 1#w = 0#w)), show i < 128 by omega, hi, hw1, true_or,
    Hacspec.require_true True.intro]
  exact ⟨_, rfl⟩

theorem trace_iterate_const {σ : Type} {n : Nat} {b : Nat → σ → L σ} {t : List Ev}
    (h : ∀ i, i < n → ∀ s, (b i s).trace = t ∧ ∃ s', (b i s).res = .ok s') (s : σ) :
    (iterate n b s).trace = (List.replicate n t).flatten ∧ ∃ s', (iterate n b s).res = .ok s' := by
  induction n with
  | zero => exact ⟨rfl, s, rfl⟩
  | succ n ih =>
    obtain ⟨h1, s1, h2⟩ := ih fun i hi => h i (by omega)
    obtain ⟨h3, s2, h4⟩ := h n (by omega) s1
    refine ⟨?_, s2, by rw [iterate, res_bind, h2]; exact h4⟩
    rw [iterate, trace_bind_ok h2, h1, h3, List.replicate_succ', List.flatten_append]
    simp

theorem trace_ctDiv (hw1 : 1 < w) (hw : w ≤ 128) {O : IntOps w} (hO : IsUnsigned O) (a d : BitVec w) :
    (ctDiv O a d).trace = .times w :: List.replicate (2 * w) (.branch true) := by
  rw [ctDiv, loop]
  have := (trace_iterate_const (n := w) (b := fun j qr => ctDivStep O a d (w - 1 - j) qr)
    (t := [.branch true, .branch true]) (fun i hi s => by
      refine ⟨trace_ctDivStep hw1 hO a d _ (by omega) hw s, ?_⟩
      rw [res_ctDivStep]; exact ctDivStep_ok hw1 hO a d _ (by omega) hw s) (0#w, 0#w)).1
  show Ev.times w :: (iterate w _ _).trace = _
  rw [this]
  congr 1
  clear this hw hw1
  have : ∀ n, (List.replicate n [Ev.branch true, .branch true]).flatten = List.replicate (2 * n) (.branch true) := by
    intro n
    induction n with
    | zero => rfl
    | succ n ih => rw [List.replicate_succ, List.flatten_cons, ih, show 2 * (n + 1) = 2 * n + 1 + 1 by omega]; rfl
  exact this w

/-! ## `sub_mod` -/

theorem trace_subLoop (rhs n : BitVec w) (hn : 0 < n.toNat) (fuel : Nat) (x : BitVec w)
    (hf : rhs.toNat - x.toNat < fuel) :
    (whileL fuel (fun t => decide (t.toNat < rhs.toNat)) (fun t => lift (addU t n)) x).trace
      = if x.toNat + cdiv (rhs.toNat - x.toNat) n.toNat * n.toNat < 2 ^ w
        then List.replicate (cdiv (rhs.toNat - x.toNat) n.toNat) (.branch true) ++ [.branch false]
        else List.replicate (cdiv (2 ^ w - x.toNat) n.toNat) (.branch true) := by
  induction fuel generalizing x with
  | zero => omega
  | succ f ih =>
    by_cases hc : x.toNat < rhs.toNat
    · rw [whileL_step (by simpa using hc)]
      have hstep := cdiv_step (a := rhs.toNat - x.toNat) hn (by omega)
      have hstep2 := cdiv_step (a := 2 ^ w - x.toNat) hn (by have := x.isLt; omega)
      by_cases hov : x.toNat + n.toNat < 2 ^ w
      · have hx' : (x + n).toNat = x.toNat + n.toNat := by
          rw [BitVec.toNat_add]; exact Nat.mod_eq_of_lt hov
        have ha : addU x n = .ok (x + n) := by simp [addU, checkedAddU, hov]
        rw [trace_bind_lift ha, ih (x + n) (by omega), hx', hstep, hstep2, Nat.sub_sub, Nat.sub_sub]
        have e : x.toNat + n.toNat + cdiv (rhs.toNat - (x.toNat + n.toNat)) n.toNat * n.toNat =
            x.toNat + (cdiv (rhs.toNat - (x.toNat + n.toNat)) n.toNat + 1) * n.toNat := by
          rw [Nat.add_mul, Nat.one_mul, Nat.add_assoc, Nat.add_comm n.toNat]
        rw [e]
        split <;> rfl
      · have ha : addU x n = Hacspec.panic := by simp [addU, checkedAddU, hov]
        rw [trace_bind_err (c := lift (addU x n)) (e := .panic) ha, if_neg (by
          rw [hstep, Nat.add_mul, Nat.one_mul]; omega), hstep2,
          show 2 ^ w - x.toNat - n.toNat = 0 by omega, cdiv_zero hn]
        rfl
    · rw [whileL_done (Nat.succ_pos f) (by simpa using hc)]
      have : rhs.toNat - x.toNat = 0 := by omega
      rw [this, cdiv_zero hn]
      simp [x.isLt]

theorem trace_subModU (x y n : BitVec w) (hn : n ≠ 0#w) :
    (subModU x y n).trace = if x.toNat + cdiv (y.toNat - x.toNat) n.toNat * n.toNat < 2 ^ w
        then List.replicate (cdiv (y.toNat - x.toNat) n.toNat) (.branch true) ++ [.branch false]
        else List.replicate (cdiv (2 ^ w - x.toNat) n.toNat) (.branch true) := by
  have hn' : 0 < n.toNat := by
    rcases Nat.eq_zero_or_pos n.toNat with h | h
    · exact absurd (BitVec.eq_of_toNat_eq (by simpa using h)) hn
    · exact h
  rw [← trace_subLoop y n hn' (2 ^ w + 1) x (by have := y.isLt; omega), subModU, bind_def, L.bind]
  split
  · rename_i a h
    rw [trace_then_lift (c := lift (subU a y)) (fun d => remU d n)]
    simp [lift]
  · rfl

/-! ## `extended_euclid_invert` -/

variable {O : IntOps w} {B : Nat}

theorem trace_subAdd_ge (E : ExactBelow O B) (n start prod : BitVec w) (h : prod.toNat ≤ start.toNat)
    (hs : start.toNat < B) : (subAdd O n start prod).trace = [.branch false] := by
  rw [subAdd, trace_then_lift (fun tmp => O.sub tmp prod)]
  exact whileL_done (Nat.succ_pos _) (by rw [E.lt start prod hs (by omega)]; simpa using h)

/-- The number of iterations of the inner loop. -/
theorem trace_subAdd (E : ExactBelow O B) (n start prod : BitVec w) (hn : 0 < n.toNat) (hp : prod.toNat < B)
    (hs : start.toNat < B) (h : start.toNat + cdiv (prod.toNat - start.toNat) n.toNat * n.toNat < B) :
    (subAdd O n start prod).trace =
      List.replicate (cdiv (prod.toNat - start.toNat) n.toNat) (.branch true) ++ [.branch false] := by
  rw [subAdd, trace_then_lift (fun tmp => O.sub tmp prod)]
  have key : ∀ fuel (s : BitVec w), prod.toNat - s.toNat < fuel → s.toNat < B →
      s.toNat + cdiv (prod.toNat - s.toNat) n.toNat * n.toNat < B →
      (whileL fuel (fun t => O.lt t prod) (fun t => lift (O.add t n)) s).trace =
        List.replicate (cdiv (prod.toNat - s.toNat) n.toNat) (.branch true) ++ [.branch false] := by
    intro fuel
    induction fuel with
    | zero => intro s h; omega
    | succ f ih =>
      intro s hf hs h
      by_cases hc : s.toNat < prod.toNat
      · have hstep := cdiv_step (a := prod.toNat - s.toNat) hn (by omega)
        rw [hstep, Nat.add_mul, Nat.one_mul] at h
        have hlt : s.toNat + n.toNat < B := by omega
        have hx' : (s + n).toNat = s.toNat + n.toNat := by
          rw [BitVec.toNat_add]; exact Nat.mod_eq_of_lt (Nat.lt_of_lt_of_le hlt E.le)
        rw [whileL_step (by rw [E.lt s prod hs hp]; simpa using hc), trace_bind_lift (E.add s n hlt),
          ih (s + n) (by omega) (by omega) (by rw [hx', ← Nat.sub_sub]; omega), hstep, hx', Nat.sub_sub]
        rfl
      · rw [whileL_done (Nat.succ_pos f) (by rw [E.lt s prod hs hp]; simpa using hc),
          show prod.toNat - s.toNat = 0 by omega, cdiv_zero hn]
        rfl
  exact key _ _ (by have := prod.isLt; omega) hs h

end MachineInt

end Hacspec.Leak
