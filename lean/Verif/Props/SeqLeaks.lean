import Verif.Lemmas.Leak.Seq

/-! # C99: what the sequence and array functions reveal

`(Leak.f x).trace` is the list of visible events of the call `f(x)`: indices of accesses, outcomes of branches (also of
assertions) and numbers of iterations. -/

namespace Hacspec.Props

open SecretInt

/-- The events of a call, and whether it succeeds, depend on its argument through the length only. -/
def HidesContents {α β : Type} (f : List α → Leak.L β) : Prop :=
  ∀ x y, x.length = y.length →
    (f x).trace = (f y).trace ∧ ((∃ a, (f x).res = .ok a) ↔ ∃ b, (f y).res = .ok b)

/-- The same for two arguments. -/
def HidesBoth {α β γ : Type} (f : List α → List β → Leak.L γ) : Prop :=
  ∀ x y u v, x.length = y.length → u.length = v.length →
    (f x u).trace = (f y v).trace ∧ ((∃ a, (f x u).res = .ok a) ↔ ∃ b, (f y v).res = .ok b)

theorem _root_.Hacspec.Leak.Same.hides {α β : Type} {R : α → β → Prop} {c : Leak.L α} {d : Leak.L β} (h : Leak.Same R c d) :
    c.trace = d.trace ∧ ((∃ a, c.res = .ok a) ↔ ∃ b, d.res = .ok b) := by
  refine ⟨h.1, ?_⟩
  have := h.2
  cases hc : c.res <;> cases hd : d.res <;> rw [hc, hd] at this <;> simp_all [Leak.ResRel]

variable {α : Type} [Inhabited α]

/-! ## Forgetting the events gives the model of the other properties -/

theorem C99_same_functions (s v : List α) (o i n : Nat) :
    (Leak.Seq.updateSub s o v i n).res = Seq.updateSub s o v i n ∧ (Leak.Seq.update s o v).res = Seq.update s o v ∧
    (Leak.Seq.updateStart s v).res = Seq.updateStart s v ∧ (Leak.Seq.fromSub v i n).res = Seq.fromSub v i n ∧
    (Leak.Seq.fromSubRange v i n).res = Seq.fromSubRange v i n ∧ (Leak.Seq.sub v i n).res = Seq.sub v i n ∧
    (Leak.Seq.subr v i n).res = Seq.subr v i n ∧ (Leak.Seq.numChunks v n).res = Seq.numChunks v n ∧
    (Leak.Seq.getChunkLen v i n).res = Seq.getChunkLen v i n ∧ (Leak.Seq.getChunk v i n).res = Seq.getChunk v i n ∧
    (Leak.Seq.setChunk s i n v).res = Seq.setChunk s i n v ∧ (Leak.Seq.fromSeq v).res = Seq.fromSeq v ∧
    (Leak.Seq.arrFromSlice n v).res = Seq.arrFromSlice n v ∧ (Leak.Seq.arrFromSub o v i n).res = Seq.arrFromSub o v i n ∧
    (Leak.Seq.arrFromSubRange o v i n).res = Seq.arrFromSubRange o v i n ∧
    (Leak.Seq.arrFromVec n v).res = Seq.arrFromVec n v ∧ (Leak.Seq.arrFromSeq n v).res = Seq.arrFromSeq n v := by
  simp

theorem C99_same_functions_words {w : Nat} (l : Nat) (x : BitVec w) (s t : List (BitVec w)) (b : List U8)
    (de : List U8 → BitVec w) :
    (Leak.Seq.arrFromPublicSlice l s).res = Seq.arrFromPublicSlice l s ∧
    (Leak.Seq.arrFromOther l s).res = Seq.arrFromOther l s ∧
    (Leak.Seq.arrToBeBytes l s).res = Seq.arrToBeBytes l s ∧ (Leak.Seq.arrToLeBytes l s).res = Seq.arrToLeBytes l s ∧
    (Leak.Seq.arrToBeWords w l b).res = Seq.arrToBeWords w l b ∧
    (Leak.Seq.arrToLeWords w l b).res = Seq.arrToLeWords w l b ∧
    (Leak.Seq.arrToPubWords l de b).res = Seq.arrToPubWords l de b ∧
    (Leak.Seq.wordToBeBytes x).res = Seq.wordToBeBytes x ∧ (Leak.Seq.wordToLeBytes x).res = Seq.wordToLeBytes x ∧
    (Leak.Seq.wordFromBeBytes w b).res = Seq.wordFromBeBytes w b ∧
    (Leak.Seq.wordFromLeBytes w b).res = Seq.wordFromLeBytes w b ∧
    (Leak.VecInt.arrAdd l s t).res = VecInt.arrAdd l s t ∧ (Leak.VecInt.arrSub l s t).res = VecInt.arrSub l s t ∧
    (Leak.VecInt.arrMulSecret l s t).res = VecInt.arrMulSecret l s t ∧
    (Leak.VecInt.arrXorPublic l s t).res = VecInt.arrXorPublic l s t ∧
    (Leak.VecInt.arrXorSecret l s t).res = VecInt.arrXorSecret l s t := by
  simp

/-! ## The claim -/

/-- **C99.**  Copying into a sequence: neither the old nor the new contents influence the events; positions and lengths
do. -/
theorem C99_updates (o i n : Nat) :
    HidesBoth (fun s v : List α => Leak.Seq.updateSub s o v i n) ∧
    HidesBoth (fun s v : List α => Leak.Seq.update s o v) ∧
    HidesBoth (fun s v : List α => Leak.Seq.updateStart s v) ∧
    HidesBoth (fun s v : List α => Leak.Seq.setChunk s i n v) :=
  ⟨fun _ _ _ _ h h' => (Leak.Seq.updateSub_same h h' rfl rfl rfl).hides,
    fun _ _ _ _ h h' => (Leak.Seq.update_same h h' rfl).hides,
    fun _ _ _ _ h h' => (Leak.Seq.updateStart_same h h').hides,
    fun _ _ _ _ h h' => (Leak.Seq.setChunk_same h h' rfl rfl).hides⟩

/-- **C99.**  Taking pieces out of a sequence. -/
theorem C99_pieces (i n : Nat) :
    HidesContents (fun v : List α => Leak.Seq.fromSub v i n) ∧
    HidesContents (fun v : List α => Leak.Seq.fromSubRange v i n) ∧
    HidesContents (fun v : List α => Leak.Seq.sub v i n) ∧
    HidesContents (fun v : List α => Leak.Seq.subr v i n) ∧
    HidesContents (fun v : List α => Leak.Seq.numChunks v n) ∧
    HidesContents (fun v : List α => Leak.Seq.getChunkLen v i n) ∧
    HidesContents (fun v : List α => Leak.Seq.getChunk v i n) :=
  ⟨fun _ _ h => (Leak.Seq.fromSub_same h rfl rfl).hides, fun _ _ h => (Leak.Seq.fromSubRange_same h rfl rfl).hides,
    fun _ _ h => (Leak.Seq.sub_same h rfl rfl).hides, fun _ _ h => (Leak.Seq.subr_same h rfl rfl).hides,
    fun _ _ h => (Leak.Seq.numChunks_same h rfl).hides, fun _ _ h => (Leak.Seq.getChunkLen_same h rfl rfl).hides,
    fun _ _ h => (Leak.Seq.getChunk_same h rfl rfl).hides⟩

/-- **C99.**  Conversions between sequences, slices and arrays. -/
theorem C99_conversions (l i n : Nat) :
    HidesContents (fun v : List α => Leak.Seq.fromSeq v) ∧
    HidesContents (fun v : List α => Leak.Seq.arrFromSlice l v) ∧
    HidesContents (fun v : List α => Leak.Seq.arrFromSub l v i n) ∧
    HidesContents (fun v : List α => Leak.Seq.arrFromSubRange l v i n) ∧
    HidesContents (fun v : List α => Leak.Seq.arrFromVec l v) ∧
    HidesContents (fun v : List α => Leak.Seq.arrFromSeq l v) :=
  ⟨fun _ _ h => (Leak.Seq.fromSeq_same h).hides, fun _ _ h => (Leak.Seq.arrFromSlice_same h).hides,
    fun _ _ h => (Leak.Seq.arrFromSub_same h rfl rfl).hides,
    fun _ _ h => (Leak.Seq.arrFromSubRange_same h rfl rfl).hides,
    fun _ _ h => (Leak.Seq.arrFromVec_same h).hides, fun _ _ h => (Leak.Seq.arrFromSeq_same h).hides⟩

/-- **C99.**  Classification and the conversions between bytes and words. -/
theorem C99_words (w l : Nat) (de : List U8 → BitVec w) :
    HidesContents (fun v : List (BitVec w) => Leak.Seq.arrFromPublicSlice l v) ∧
    HidesContents (fun v : List (BitVec w) => Leak.Seq.arrFromOther l v) ∧
    HidesContents (fun v : List (BitVec w) => Leak.Seq.arrToBeBytes l v) ∧
    HidesContents (fun v : List (BitVec w) => Leak.Seq.arrToLeBytes l v) ∧
    HidesContents (fun v : List U8 => Leak.Seq.arrToBeWords w l v) ∧
    HidesContents (fun v : List U8 => Leak.Seq.arrToLeWords w l v) ∧
    HidesContents (fun v : List U8 => Leak.Seq.arrToPubWords l de v) ∧
    HidesContents (fun v : List U8 => Leak.Seq.wordFromBeBytes w v) ∧
    HidesContents (fun v : List U8 => Leak.Seq.wordFromLeBytes w v) ∧
    (∀ x y : BitVec w, (Leak.Seq.wordToBeBytes x).trace = (Leak.Seq.wordToBeBytes y).trace ∧
      (Leak.Seq.wordToLeBytes x).trace = (Leak.Seq.wordToLeBytes y).trace) :=
  ⟨fun _ _ h => (Leak.Seq.arrFromPublicSlice_same h).hides, fun _ _ h => (Leak.Seq.arrFromOther_same h).hides,
    fun _ _ h => (Leak.Seq.arrToBeBytes_same h).hides, fun _ _ h => (Leak.Seq.arrToLeBytes_same h).hides,
    fun _ _ h => (Leak.Seq.arrToBeWords_same h).hides, fun _ _ h => (Leak.Seq.arrToLeWords_same h).hides,
    fun _ _ h => (Leak.Seq.arrToPubWords_same h).hides, fun _ _ h => (Leak.Seq.wordFromBeBytes_same h).hides,
    fun _ _ h => (Leak.Seq.wordFromLeBytes_same h).hides,
    fun _ _ => ⟨Leak.Seq.wordToBeBytes_same.trace, Leak.Seq.wordToLeBytes_same.trace⟩⟩

/-- **C99.**  Element-wise arithmetic on arrays. -/
theorem C99_arithmetic (w l : Nat) :
    HidesBoth (fun s t : List (BitVec w) => Leak.VecInt.arrAdd l s t) ∧
    HidesBoth (fun s t : List (BitVec w) => Leak.VecInt.arrSub l s t) ∧
    HidesBoth (fun s t : List (BitVec w) => Leak.VecInt.arrMulSecret l s t) ∧
    HidesBoth (fun s t : List (BitVec w) => Leak.VecInt.arrXorPublic l s t) ∧
    HidesBoth (fun s t : List (BitVec w) => Leak.VecInt.arrXorSecret l s t) :=
  ⟨fun _ _ _ _ h h' => (Leak.VecInt.arrAdd_same h h').hides, fun _ _ _ _ h h' => (Leak.VecInt.arrSub_same h h').hides,
    fun _ _ _ _ h h' => (Leak.VecInt.arrMulSecret_same h h').hides,
    fun _ _ _ _ h h' => (Leak.VecInt.arrXorPublic_same h h').hides,
    fun _ _ _ _ h h' => (Leak.VecInt.arrXorSecret_same h h').hides⟩

/-- The events are not trivial: they show the position and the length of a copy. -/
example : (Leak.Seq.updateSub [0#8, 0#8, 0#8] 1 [5#8, 6#8] 0 2).trace =
    [.branch true, .branch true, .times 2, .read 0, .write 1, .read 1, .write 2] := by decide
example : (Leak.Seq.updateSub [0#8, 0#8, 0#8] 1 [5#8, 6#8] 0 2).trace ≠
    (Leak.Seq.updateSub [0#8, 0#8, 0#8] 0 [5#8, 6#8] 0 2).trace := by decide
/-- A function that looks at the elements does not satisfy the claim. -/
example : ¬ HidesContents (fun v : List U8 => Leak.branch (v.head? = some 0#8) (Leak.L.ok v) (Leak.L.ok [])) := by
  intro h
  have := (h [0] [1] rfl).1
  revert this
  decide

end Hacspec.Props
