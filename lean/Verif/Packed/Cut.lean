import Verif.Packed.StateProps

/-!
# packed_trie_map: `load_state` on a stream that ends too early, model

`State.lean` reports every read past the end of the stream as `ub`.  Here the reads are followed further.
`std::istream::read` stores what there is and sets the stream's error state, which `load_state` never looks at; the
rest of the buffer keeps what it held before.  The library's value serializers loop until all bytes have arrived, so at
the end of the stream they loop forever.

A stream is a list of bytes.  Not modelled: memory running out because a size field is large.
-/
namespace Mdds.Packed
open Mdds.Trie

variable {V : Type}

/-- What a call does: return, throw, use a value that was never written or an element that is not there, or not return. -/
inductive LRes (α : Type) where
  | ok (a : α)
  | err (e : Err)
  | ub
  | hang
  deriving DecidableEq, Repr

def LRes.bind {α β : Type} (x : LRes α) (f : α → LRes β) : LRes β :=
  match x with
  | .ok a => f a
  | .err e => .err e
  | .ub => .ub
  | .hang => .hang

/-- The eight bytes of `union bin_value` (`tm.inl` 319-326); `none`: not written yet. -/
abbrev Bv := List (Option Nat)

/-- `bin_value bv;` -/
def Bv.fresh : Bv := List.replicate 8 none

/-- `is.read(bv.buffer, n)`: the bytes there are go to the front of the buffer. -/
def isRead (n : Nat) (b : Bv) (s : List Nat) : Bv × List Nat :=
  ((s.take n).map some ++ b.drop (min n s.length), s.drop n)

/-- The bytes, if all of them were written. -/
def known : List (Option Nat) → Option (List Nat)
  | [] => some []
  | some x :: l => (known l).map (x :: ·)
  | none :: _ => none

/-- `bv.ui8`, `bv.ui16`, `bv.ui32`, `bv.ui64`: the number in the first `n` bytes. -/
def Bv.num (n : Nat) (b : Bv) : LRes Nat :=
  match known (b.take n) with
  | some l => .ok (unle l)
  | none => .ub

/-- Loop of `numeric_value_serializer::read` (`tm.inl` 504-510): `n` bytes still to come, each `is.read` asks for
`sz`. `none`: still running after that many rounds. -/
def numLoop (sz : Nat) : Nat → Nat → List Nat → List Nat → Option (List Nat × List Nat)
  | _, 0, got, s => some (got, s)
  | 0, _ + 1, _, _ => none
  | fuel + 1, n + 1, got, s => numLoop sz fuel (n + 1 - min sz s.length) (got ++ s.take sz) (s.drop sz)

/-- Loop of `variable_value_serializer<std::string>::read` (`tm.inl` 563-569). -/
def strLoop : Nat → Nat → List Nat → List Nat → Option (List Nat × List Nat)
  | _, 0, got, s => some (got, s)
  | 0, _ + 1, _, _ => none
  | fuel + 1, n + 1, got, s => strLoop fuel (n + 1 - min (n + 1) s.length) (got ++ s.take (n + 1)) (s.drop (n + 1))

/-- A value serializer that does not get its bytes does not return (`num_hangs`, `str_hangs`). -/
def ofRead {α : Type} : Outcome α → LRes α
  | .ok a => .ok a
  | .err e => .err e
  | .ub => .hang

/-- Loop of `read_fixed_size_values_from_istream` (`tm.inl` 426-430). -/
def readFixedT (f : Ser V) : Nat → List Nat → LRes (List V × List Nat)
  | 0, s => .ok ([], s)
  | n + 1, s => (ofRead (f.read f.size s)).bind fun x => (readFixedT f n x.2).bind fun y => .ok (x.1 :: y.1, y.2)

/-- Loop of `read_variable_size_values_from_istream` (`tm.inl` 446-455). -/
def readVarT (f : Ser V) : Nat → Bv → List Nat → LRes (List V × List Nat)
  | 0, _, s => .ok ([], s)
  | n + 1, b, s =>
    let r := isRead 4 b s
    (r.1.num 4).bind fun z => (ofRead (f.read z r.2)).bind fun x =>
      (readVarT f n r.1 x.2).bind fun y => .ok (x.1 :: y.1, y.2)

/-- `read_values_from_istream` (`tm.inl` 405-472); it has a `bin_value` of its own. -/
def readValsT (f : Ser V) (n : Nat) (s : List Nat) : LRes (List V × List Nat) :=
  if f.varSize then readVarT f n Bv.fresh s
  else
    let r := isRead 4 Bv.fresh s
    (r.1.num 4).bind fun z => if z ≠ f.size then .err .invalidArg else readFixedT f n r.2

/-- The loop over the cells (`tm.inl` 1746-1751). -/
def cellsT (pvt : Nat) : Nat → Bv → List Nat → LRes (List Nat × Bv × List Nat)
  | 0, b, s => .ok ([], b, s)
  | n + 1, b, s =>
    let r := isRead pvt b s
    (r.1.num pvt).bind fun c => (cellsT pvt n r.1 r.2).bind fun y => .ok (c :: y.1, y.2)

/-- Second half of `load_state` (`tm.inl` 1727-1785). -/
def loadCellsT (pvt : Nat) (b : Bv) (s : List Nat) : LRes (List Nat × List Nat) :=
  let r1 := isRead 1 b s
  (r1.1.num 1).bind fun x => if x ≠ 255 then .err .invalidArg else
  let r2 := isRead 1 r1.1 r1.2
  (r2.1.num 1).bind fun y => if y ≠ pvt then .err .invalidArg else
  let r3 := isRead 8 r2.1 r2.2
  (r3.1.num 8).bind fun n => (cellsT pvt n r3.1 r3.2).bind fun cs =>
    let r4 := isRead 1 cs.2.1 cs.2.2
    (r4.1.num 1).bind fun w => if w ≠ 255 then .err .invalidArg
    else match walkBuffer cs.1 with
      | .ok _ => .ok (cs.1, r4.2)
      | _ => .ub

/-- `load_state` (`tm.inl` 1701-1785): the state of the container afterwards and the outcome with the rest of the
stream.  (With `ub` and `hang` the state has no meaning.) -/
def loadT (f : Ser V) (pvt : Nat) (q : Packed V) (s : List Nat) : Packed V × LRes (List Nat) :=
  let r1 := isRead 2 Bv.fresh s
  match (r1.1.num 2).bind fun x => if decide (x % 2 = 1) ≠ f.varSize then .err .invalidArg
      else ((isRead 4 r1.1 r1.2).1.num 4).bind fun n => readValsT f n (isRead 4 r1.1 r1.2).2 with
  | .ok vs => match loadCellsT pvt (isRead 4 r1.1 r1.2).1 vs.2 with
    | .ok cs => (⟨cs.1, vs.1⟩, .ok cs.2)
    | .err e => (⟨q.pk, vs.1⟩, .err e)
    | .ub => (q, .ub)
    | .hang => (q, .hang)
  | .err e => (q, .err e)
  | .ub => (q, .ub)
  | .hang => (q, .hang)

/-! ### Lemmas -/

theorem known_some (l : List Nat) : known (l.map some) = some l := by
  induction l with
  | nil => rfl
  | cons a l ih => simp [known, ih]

theorem known_none {l : List (Option Nat)} (h : none ∈ l) : known l = none := by
  induction l with
  | nil => simp at h
  | cons a l ih =>
    cases a with
    | none => rfl
    | some x => simp [known, ih (by simpa using h)]

theorem num_hangs {sz : Nat} {s : List Nat} (h : s.length < sz) (fuel : Nat) : numLoop sz fuel sz [] s = none := by
  have key : ∀ fuel n got (s : List Nat), s.length < n → n ≤ sz → numLoop sz fuel n got s = none := by
    intro fuel
    induction fuel with
    | zero => intro n got s h _; cases n with
      | zero => omega
      | succ n => rfl
    | succ f ih => intro n got s h hn; cases n with
      | zero => omega
      | succ n =>
        show numLoop sz f _ _ _ = none
        have hm : min sz s.length = s.length := by omega
        rw [hm, List.drop_of_length_le (by omega)]
        exact ih _ _ _ (by simp only [List.length_nil]; omega) (by omega)
  exact key fuel sz [] s h (Nat.le_refl _)

theorem num_reads {sz : Nat} {s : List Nat} (h0 : 0 < sz) (h : sz ≤ s.length) (fuel : Nat) :
    numLoop sz (fuel + 1) sz [] s = some (s.take sz, s.drop sz) := by
  obtain ⟨n, rfl⟩ : ∃ n, sz = n + 1 := ⟨sz - 1, by omega⟩
  show numLoop (n + 1) fuel _ _ _ = _
  have hm : min (n + 1) s.length = n + 1 := by omega
  rw [hm, Nat.sub_self]
  cases fuel <;> rfl

theorem str_hangs {n : Nat} {s : List Nat} (h : s.length < n) (fuel : Nat) : strLoop fuel n [] s = none := by
  have key : ∀ fuel n got (s : List Nat), s.length < n → strLoop fuel n got s = none := by
    intro fuel
    induction fuel with
    | zero => intro n got s h; cases n with
      | zero => omega
      | succ n => rfl
    | succ f ih => intro n got s h; cases n with
      | zero => omega
      | succ n =>
        show strLoop f _ _ _ = none
        have hm : min (n + 1) s.length = s.length := by omega
        rw [hm, List.drop_of_length_le (by omega)]
        exact ih _ _ _ (by simp only [List.length_nil]; omega)
  exact key fuel n [] s h

theorem str_reads {n : Nat} {s : List Nat} (h : n ≤ s.length) (fuel : Nat) :
    strLoop (fuel + 1) n [] s = some (s.take n, s.drop n) := by
  cases n with
  | zero => simp [strLoop]
  | succ n =>
    show strLoop fuel _ _ _ = _
    have hm : min (n + 1) s.length = n + 1 := by omega
    rw [hm, Nat.sub_self]
    cases fuel <;> rfl

/-- The loop of the numeric serializer is `numSer`: it returns exactly when `numSer` reads. -/
theorem numSer_loop {sz : Nat} (h0 : 0 < sz) (s : List Nat) :
    (∀ fuel, numLoop sz fuel sz [] s = none) ∧ (numSer sz).read sz s = .ub ∨
    ∃ x r, numLoop sz 1 sz [] s = some (x, r) ∧ (numSer sz).read sz s = .ok (unle x, r) := by
  by_cases h : sz ≤ s.length
  · exact .inr ⟨_, _, num_reads h0 h 0, by simp [numSer, rdInt, rdN, h, Outcome.map]⟩
  · exact .inl ⟨num_hangs (by omega), by simp [numSer, rdInt, rdN, h, Outcome.map]⟩

/-- The loop of the string serializer is `strSer`. -/
theorem strSer_loop (n : Nat) (s : List Nat) :
    (∀ fuel, strLoop fuel n [] s = none) ∧ strSer.read n s = .ub ∨
    ∃ x r, strLoop 1 n [] s = some (x, r) ∧ strSer.read n s = .ok (x, r) := by
  by_cases h : n ≤ s.length
  · exact .inr ⟨_, _, str_reads h 0, by simp [strSer, rdN, h]⟩
  · exact .inl ⟨str_hangs (by omega), by simp [strSer, rdN, h]⟩

theorem isRead_snd (n : Nat) (b : Bv) (s : List Nat) : (isRead n b s).2 = s.drop n := rfl

theorem isRead_length {n : Nat} {b : Bv} {s : List Nat} (h : n ≤ b.length) : (isRead n b s).1.length = b.length := by
  simp only [isRead, List.length_append, List.length_map, List.length_take, List.length_drop]
  omega

theorem isRead_num {n : Nat} {b : Bv} {s : List Nat} (h : n ≤ s.length) : (isRead n b s).1.num n = .ok (unle (s.take n)) := by
  unfold Bv.num isRead
  have : (List.map some (List.take n s) ++ List.drop (min n s.length) b).take n = (s.take n).map some := by
    rw [List.take_left' (by simp; omega)]
  simp only [this, known_some]

/-- A read that succeeds in `State.lean` succeeds here. -/
theorem rdInt_isRead {n : Nat} {s : List Nat} {x : Nat × List Nat} (h : rdInt n s = .ok x) (b : Bv) :
    (isRead n b s).1.num n = .ok x.1 ∧ (isRead n b s).2 = x.2 := by
  unfold rdInt rdN at h
  split at h
  · rename_i hl
    cases h
    exact ⟨isRead_num hl, rfl⟩
  · cases h

theorem readFixedT_eq (f : Ser V) : ∀ (n : Nat) (s : List Nat), readFixed f n s ≠ .ub → readFixedT f n s = ofRead (readFixed f n s)
  | 0, s, _ => rfl
  | n + 1, s, h => by
    unfold readFixed at h ⊢
    unfold readFixedT
    cases e : f.read f.size s with
    | ok x =>
      rw [e, obind_ok] at h
      show (readFixedT f n x.2).bind _ = _
      have h2 : readFixed f n x.2 ≠ .ub := fun e2 => h (by rw [e2]; rfl)
      rw [readFixedT_eq f n x.2 h2, obind_ok]
      cases readFixed f n x.2 <;> rfl
    | err e => rfl
    | ub => rfl

theorem readVarT_eq (f : Ser V) : ∀ (n : Nat) (b : Bv) (s : List Nat), readVar f n s ≠ .ub →
    readVarT f n b s = ofRead (readVar f n s)
  | 0, b, s, _ => rfl
  | n + 1, b, s, h => by
    unfold readVar at h ⊢
    unfold readVarT
    cases e0 : rdInt 4 s with
    | ub => rw [e0] at h; exact absurd rfl h
    | err e => unfold rdInt rdN at e0; split at e0 <;> cases e0
    | ok z =>
      obtain ⟨h1, h2⟩ := rdInt_isRead e0 b
      simp only [h1, h2]
      rw [e0, obind_ok] at h
      rw [obind_ok]
      show (ofRead (f.read z.1 z.2)).bind _ = _
      cases e : f.read z.1 z.2 with
      | ok x =>
        rw [e, obind_ok] at h
        have h2 : readVar f n x.2 ≠ .ub := fun e2 => h (by rw [e2]; rfl)
        show (readVarT f n _ x.2).bind _ = _
        rw [readVarT_eq f n _ x.2 h2, obind_ok]
        cases readVar f n x.2 <;> rfl
      | err e => rfl
      | ub => rfl

theorem rdInt_noerr {n : Nat} {s : List Nat} {e : Err} : rdInt n s ≠ .err e := by
  unfold rdInt rdN; split <;> simp [Outcome.map]

theorem readValsT_eq (f : Ser V) (n : Nat) (s : List Nat) (h : readVals f n s ≠ .ub) : readValsT f n s = ofRead (readVals f n s) := by
  unfold readVals at h ⊢
  unfold readValsT
  split
  · rename_i hv
    rw [if_pos hv] at h
    exact readVarT_eq f n _ s h
  · rename_i hv
    rw [if_neg hv] at h
    cases e0 : rdInt 4 s with
    | ub => rw [e0] at h; exact absurd rfl h
    | err e => exact absurd e0 rdInt_noerr
    | ok z =>
      obtain ⟨h1, h2⟩ := rdInt_isRead e0 Bv.fresh
      simp only [h1, h2]
      rw [e0, obind_ok] at h
      rw [obind_ok]
      show (if z.1 ≠ f.size then LRes.err Err.invalidArg else readFixedT f n z.2) = _
      split
      · rfl
      · rename_i hz
        rw [if_neg hz] at h
        exact readFixedT_eq f n _ h

theorem cellsT_eq (pvt : Nat) : ∀ (n : Nat) (b : Bv) (s : List Nat) {x : List Nat × List Nat}, rdElems pvt n s = .ok x →
    ∃ b', cellsT pvt n b s = .ok (x.1, b', x.2)
  | 0, b, s, x, h => by cases h; exact ⟨b, rfl⟩
  | n + 1, b, s, x, h => by
    unfold rdElems at h
    cases e0 : rdInt pvt s with
    | ub => rw [e0] at h; cases h
    | err e => exact absurd e0 rdInt_noerr
    | ok z =>
      rw [e0, obind_ok] at h
      cases e1 : rdElems pvt n z.2 with
      | ub => rw [e1] at h; cases h
      | err e => rw [e1] at h; cases h
      | ok y =>
        rw [e1, obind_ok] at h
        cases h
        obtain ⟨h1, h2⟩ := rdInt_isRead e0 b
        obtain ⟨b', hb⟩ := cellsT_eq pvt n (isRead pvt b s).1 z.2 e1
        refine ⟨b', ?_⟩
        unfold cellsT
        simp only [h1, h2]
        show (cellsT pvt n (isRead pvt b s).1 z.2).bind _ = _
        rw [hb]; rfl

end Mdds.Packed
