import Verif.Packed.Lemmas

/-!
# packed_trie_map: `save_state` / `load_state`, model

A stream is a list of bytes (numbers below 256).  Integers are stored in little-endian order; the code
copies native memory, so writer and reader are on machines with the same byte order.  Reading past the end
of the stream leaves the buffer of the code in an unspecified state: that outcome is `ub`.
-/
namespace Mdds.Packed
open Mdds.Trie

variable {V : Type}

/-- The `n` low bytes of a number (`os.write(bv.buffer, n)`). -/
def le : Nat → Nat → List Nat
  | 0, _ => []
  | n + 1, x => x % 256 :: le n (x / 256)

/-- Number of a byte sequence. -/
def unle : List Nat → Nat
  | [] => 0
  | b :: l => b + 256 * unle l

/-- `is.read(buffer, n)`: bytes and remaining stream. -/
def rdN (n : Nat) (s : List Nat) : Outcome (List Nat × List Nat) :=
  if n ≤ s.length then .ok (s.take n, s.drop n) else .ub

/-- Reads an `n`-byte integer. -/
def rdInt (n : Nat) (s : List Nat) : Outcome (Nat × List Nat) := (rdN n s).map fun x => (unle x.1, x.2)

/-- A value serializer (template parameter `FuncT`): `variable_size`, `value_size`, `write`, `read`. -/
structure Ser (V : Type) where
  varSize : Bool
  size : Nat
  write : V → List Nat
  read : Nat → List Nat → Outcome (V × List Nat)

/-- `numeric_value_serializer` (`tm.inl` 476-514; `tm.hpp` 77-90): a number of `sz` bytes. -/
def numSer (sz : Nat) : Ser Nat :=
  ⟨false, sz, fun v => le sz v, fun n s => if n = sz then rdInt sz s else .ub⟩

/-- Element reader of the sequence serializer. -/
def rdElems (sz : Nat) : Nat → List Nat → Outcome (List Nat × List Nat)
  | 0, s => .ok ([], s)
  | n + 1, s => (rdInt sz s).bind fun x => (rdElems sz n x.2).bind fun y => .ok (x.1 :: y.1, y.2)

/-- `numeric_sequence_value_serializer` (`tm.inl` 516-547; `tm.hpp` 92-112). -/
def seqSer (sz : Nat) : Ser (List Nat) :=
  ⟨true, 0, fun v => v.flatMap (le sz), fun n s => rdElems sz (n / sz) s⟩

/-- `variable_value_serializer<std::string>` (`tm.inl` 549-570). -/
def strSer : Ser (List Nat) := ⟨true, 0, fun v => v, rdN⟩

/-- `write_variable_size_values_to_ostream` (`tm.inl` 330-356). -/
def writeVar (f : Ser V) (vals : List V) : List Nat := vals.flatMap fun v => le 4 (f.write v).length ++ f.write v

/-- Loop of `write_fixed_size_values_to_ostream` (`tm.inl` 369-387). -/
def writeFixed (f : Ser V) : List V → Outcome (List Nat)
  | [] => .ok []
  | v :: l => if (f.write v).length ≠ f.size then .err .size else (writeFixed f l).map (f.write v ++ ·)

/-- `write_values_to_ostream` (`tm.inl` 358-403). -/
def writeVals (f : Ser V) (vals : List V) : Outcome (List Nat) :=
  if f.varSize then .ok (writeVar f vals) else (writeFixed f vals).map (le 4 f.size ++ ·)

/-- Cells from `i` on. -/
def rdSeq (pk : List Nat) : Nat → Nat → Outcome (List Nat)
  | _, 0 => .ok []
  | i, n + 1 => (rd pk i).bind fun x => (rdSeq pk (i + 1) n).map (x :: ·)

/-- The `while` loop of `traverse_packed_buffer` (`tm.inl` 55-72): the cells in the order in which the
handler gets them. -/
def walkNodes (pk : List Nat) : Nat → Nat → Outcome (List Nat)
  | 0, _ => .ub
  | fuel + 1, i =>
    if i < pk.length then
      (rd pk i).bind fun v => (rd pk (i + 1)).bind fun idx => (rdSeq pk (i + 2) (2 * (idx / 2))).bind fun xs =>
        (walkNodes pk fuel (i + 2 + 2 * (idx / 2))).map fun l => v :: idx :: (xs ++ l)
    else .ok []

/-- `traverse_packed_buffer` (`tm.inl` 43-75); every round consumes cells, so `pk.length` rounds suffice. -/
def walkBuffer (pk : List Nat) : Outcome (List Nat) :=
  (rd pk 0).bind fun r => (walkNodes pk (pk.length + 1) 1).map (r :: ·)

/-- `save_state` (`tm.inl` 1613-1699); `pvt` is `sizeof(pack_value_type)`. -/
def save (f : Ser V) (pvt : Nat) (p : Packed V) : Outcome (List Nat) :=
  (writeVals f p.vals).bind fun vs => (walkBuffer p.pk).bind fun cs =>
    .ok (le 2 (if f.varSize then 1 else 0) ++ le 4 p.vals.length ++ vs ++ [255] ++ le 1 pvt ++
      le 8 p.pk.length ++ cs.flatMap (le pvt) ++ [255])

/-- Loop of `read_fixed_size_values_from_istream` (`tm.inl` 425-429). -/
def readFixed (f : Ser V) : Nat → List Nat → Outcome (List V × List Nat)
  | 0, s => .ok ([], s)
  | n + 1, s => (f.read f.size s).bind fun x => (readFixed f n x.2).bind fun y => .ok (x.1 :: y.1, y.2)

/-- `read_variable_size_values_from_istream` (`tm.inl` 435-458). -/
def readVar (f : Ser V) : Nat → List Nat → Outcome (List V × List Nat)
  | 0, s => .ok ([], s)
  | n + 1, s => (rdInt 4 s).bind fun z => (f.read z.1 z.2).bind fun x =>
    (readVar f n x.2).bind fun y => .ok (x.1 :: y.1, y.2)

/-- `read_values_from_istream` (`tm.inl` 405-472). -/
def readVals (f : Ser V) (n : Nat) (s : List Nat) : Outcome (List V × List Nat) :=
  if f.varSize then readVar f n s
  else (rdInt 4 s).bind fun z => if z.1 ≠ f.size then .err .invalidArg else readFixed f n z.2

/-- Second half of `load_state` (`tm.inl` 1727-1785): cells, into a fresh vector that is swapped in at the
end. The traversal at the end of the code writes every value cell onto itself. -/
def loadCells (pvt : Nat) (s : List Nat) : Outcome (List Nat × List Nat) :=
  (rdInt 1 s).bind fun x => if x.1 ≠ 255 then .err .invalidArg
  else (rdInt 1 x.2).bind fun y => if y.1 ≠ pvt then .err .invalidArg
  else (rdInt 8 y.2).bind fun z => (rdElems pvt z.1 z.2).bind fun cs =>
    (rdInt 1 cs.2).bind fun w => if w.1 ≠ 255 then .err .invalidArg
    else (walkBuffer cs.1).bind fun _ => .ok (cs.1, w.2)

/-- `load_state` (`tm.inl` 1701-1785): the state of the container afterwards, and the outcome with the rest of
the stream. `std::invalid_argument` is `Err.invalidArg`. -/
def load (f : Ser V) (pvt : Nat) (q : Packed V) (s : List Nat) : Packed V × Outcome (List Nat) :=
  match (rdInt 2 s).bind fun x => if decide (x.1 % 2 = 1) ≠ f.varSize then .err .invalidArg
      else (rdInt 4 x.2).bind fun n => readVals f n.1 n.2 with
  | .ok vs => match loadCells pvt vs.2 with
    | .ok cs => (⟨cs.1, vs.1⟩, .ok cs.2)
    | .err e => (⟨q.pk, vs.1⟩, .err e)
    | .ub => (⟨q.pk, vs.1⟩, .ub)
  | .err e => (q, .err e)
  | .ub => (q, .ub)

/-! ## lemmas -/

theorem le_length (n x : Nat) : (le n x).length = n := by
  induction n generalizing x with
  | zero => rfl
  | succ n ih => simp [le, ih]

theorem unle_le (n x : Nat) : unle (le n x) = x % 256 ^ n := by
  induction n generalizing x with
  | zero => simp [le, unle, Nat.mod_one]
  | succ n ih =>
    simp only [le, unle, ih]
    rw [Nat.pow_succ', Nat.mod_mul]

theorem rdN_append (a s : List Nat) : rdN a.length (a ++ s) = .ok (a, s) := by
  simp [rdN]

theorem rdInt_le (n x : Nat) (s : List Nat) (h : x < 256 ^ n) : rdInt n (le n x ++ s) = .ok (x, s) := by
  unfold rdInt
  have := rdN_append (le n x) s
  rw [le_length] at this
  rw [this]
  simp [Outcome.map, unle_le, Nat.mod_eq_of_lt h]

theorem rdElems_spec (sz : Nat) (l s : List Nat) (h : ∀ x ∈ l, x < 256 ^ sz) :
    rdElems sz l.length (l.flatMap (le sz) ++ s) = .ok (l, s) := by
  induction l with
  | nil => rfl
  | cons a l ih =>
    simp only [List.length_cons, rdElems, List.flatMap_cons, List.append_assoc]
    rw [rdInt_le sz a _ (h a (by simp)), obind_ok, ih (fun x hx => h x (by simp [hx])), obind_ok]

/-- Writing and reading back a value. -/
structure Lawful (f : Ser V) (valid : V → Prop) : Prop where
  round : ∀ v s, valid v → f.read (f.write v).length (f.write v ++ s) = .ok (v, s)
  fixed : f.varSize = false → ∀ v, valid v → (f.write v).length = f.size
  size : f.varSize = false → f.size < 256 ^ 4
  bound : f.varSize = true → ∀ v, valid v → (f.write v).length < 256 ^ 4

theorem writeFixed_ok (f : Ser V) (l : List V) (h : ∀ v ∈ l, (f.write v).length = f.size) :
    writeFixed f l = .ok (l.flatMap f.write) := by
  induction l with
  | nil => rfl
  | cons a l ih =>
    simp only [writeFixed]
    rw [if_neg (by simpa using h a (by simp)), ih (fun v hv => h v (by simp [hv]))]
    simp [Outcome.map]

theorem readFixed_spec (f : Ser V) (valid : V → Prop) (hf : Lawful f valid) (hv : f.varSize = false) (l : List V) (s : List Nat)
    (h : ∀ v ∈ l, valid v) : readFixed f l.length (l.flatMap f.write ++ s) = .ok (l, s) := by
  induction l with
  | nil => rfl
  | cons a l ih =>
    simp only [List.length_cons, readFixed, List.flatMap_cons, List.append_assoc]
    have := hf.round a (l.flatMap f.write ++ s) (h a (by simp))
    rw [hf.fixed hv a (h a (by simp))] at this
    rw [this, obind_ok, ih (fun v hv => h v (by simp [hv])), obind_ok]

theorem readVar_spec (f : Ser V) (valid : V → Prop) (hf : Lawful f valid) (hv : f.varSize = true) (l : List V) (s : List Nat)
    (h : ∀ v ∈ l, valid v) : readVar f l.length (writeVar f l ++ s) = .ok (l, s) := by
  unfold writeVar
  induction l with
  | nil => rfl
  | cons a l ih =>
    simp only [List.length_cons, readVar, List.flatMap_cons, List.append_assoc]
    rw [rdInt_le 4 _ _ (hf.bound hv a (h a (by simp))), obind_ok, hf.round a _ (h a (by simp)), obind_ok,
      ih (fun v hv => h v (by simp [hv])), obind_ok]

theorem readVals_spec (f : Ser V) (valid : V → Prop) (hf : Lawful f valid) (l : List V) (s : List Nat) (h : ∀ v ∈ l, valid v) :
    ∃ bs, writeVals f l = .ok bs ∧ readVals f l.length (bs ++ s) = .ok (l, s) := by
  unfold writeVals readVals
  cases hv : f.varSize with
  | true => exact ⟨_, rfl, readVar_spec f valid hf hv l s h⟩
  | false =>
    simp only [Bool.false_eq_true, if_false]
    rw [writeFixed_ok f l (fun v hvv => hf.fixed hv v (h v hvv))]
    refine ⟨_, rfl, ?_⟩
    rw [List.append_assoc, rdInt_le 4 _ _ (hf.size hv), obind_ok]
    simp only [ne_eq, not_true_eq_false, if_false]
    exact readFixed_spec f valid hf hv l s h

/-- A sequence of node records. -/
inductive Tiled : List Nat → Prop
  | nil : Tiled []
  | cons (v n : Nat) (slots rest : List Nat) (h : slots.length = 2 * n) (ht : Tiled rest) : Tiled (v :: 2 * n :: (slots ++ rest))

theorem Tiled.append {a b : List Nat} (ha : Tiled a) (hb : Tiled b) : Tiled (a ++ b) := by
  induction ha with
  | nil => exact hb
  | cons v n slots rest h ht ih =>
    have := Tiled.cons v n slots (rest ++ b) h ih
    simpa using this

theorem rdSeq_spec (pk a b c : List Nat) (h : pk = a ++ b ++ c) : rdSeq pk a.length b.length = .ok b := by
  induction b generalizing a with
  | nil => rfl
  | cons x b ih =>
    simp only [List.length_cons, rdSeq]
    have hx : pk[a.length]? = some x := by rw [h]; simp
    rw [rd_of hx, obind_ok]
    have := ih (a ++ [x]) (by rw [h]; simp)
    rw [List.length_append] at this
    simp only [List.length_cons, List.length_nil, Nat.zero_add] at this
    rw [this]
    rfl

theorem walkNodes_spec (pk l : List Nat) (ht : Tiled l) : (a : List Nat) → (fuel : Nat) → pk = a ++ l → l.length < fuel →
    walkNodes pk fuel a.length = .ok l := by
  induction ht with
  | nil =>
    intro a fuel h hf
    obtain ⟨f, rfl⟩ : ∃ f, fuel = f + 1 := ⟨fuel - 1, by omega⟩
    simp only [walkNodes]
    rw [if_neg (by rw [h]; simp)]
  | cons v n slots rest hs ht ih =>
    intro a fuel h hf
    obtain ⟨f, rfl⟩ : ∃ f, fuel = f + 1 := ⟨fuel - 1, by omega⟩
    simp only [walkNodes]
    have h1 : pk[a.length]? = some v := by rw [h]; simp
    have h2 : pk[a.length + 1]? = some (2 * n) := by rw [h]; simp
    rw [if_pos (by rw [h]; simp), rd_of h1, obind_ok, rd_of h2, obind_ok, show 2 * (2 * n / 2) = 2 * n by omega]
    have h3 := rdSeq_spec pk (a ++ [v, 2 * n]) slots rest (by rw [h]; simp)
    have h4 := ih (a ++ v :: 2 * n :: slots) f (by rw [h]; simp) (by simp only [List.length_cons, List.length_append] at hf; omega)
    simp only [List.length_append, List.length_cons, List.length_nil, Nat.zero_add] at h3 h4
    rw [hs] at h3 h4
    rw [h3, obind_ok, show a.length + 2 + 2 * n = a.length + (2 * n + 1 + 1) by omega, h4]
    simp [Outcome.map]

theorem walkBuffer_spec (r : Nat) (l : List Nat) (ht : Tiled l) : walkBuffer (r :: l) = .ok (r :: l) := by
  unfold walkBuffer
  rw [rd_of (show (r :: l)[0]? = some r from rfl), obind_ok]
  have := walkNodes_spec (r :: l) l ht [r] ((r :: l).length + 1) rfl (by simp; omega)
  simp only [List.length_singleton] at this
  rw [this]
  rfl

/-- What one node adds to the buffer. -/
theorem finishNode_tiled {cap : Nat} {v : Option V} {offs : List (Nat × Nat)} {s s' : Packed V} {off : Nat} (hcap : 0 < cap)
    (h : finishNode cap v offs s = .ok (s', off)) :
    ∃ x, s'.pk = s.pk ++ x ∧ (∀ c ∈ x, c < cap) ∧ (s'.pk.length ≤ cap → 1 ≤ s.pk.length → Tiled x) := by
  obtain ⟨-, -, -, hpk⟩ := finishNode_ok h
  refine ⟨_, hpk, ?_, ?_⟩
  · intro c hc
    simp only [List.mem_cons, List.mem_flatMap, List.not_mem_nil, or_false] at hc
    rcases hc with rfl | rfl | ⟨x, -, rfl | rfl⟩
    · cases v with
      | none => simp only [nullValue]; omega
      | some y => exact Nat.mod_lt _ hcap
    · exact Nat.mod_lt _ hcap
    · exact Nat.mod_lt _ hcap
    · exact Nat.mod_lt _ hcap
  · intro hroom hpos
    have hlen : s'.pk.length = s.pk.length + 2 + 2 * offs.length := by
      rw [hpk]; simp only [List.length_append, List.length_cons, flatMap_pair_length]; omega
    rw [Nat.mod_eq_of_lt (show 2 * offs.length < cap by omega)]
    have key (w : Nat) : Tiled (w :: 2 * offs.length :: offs.flatMap fun x => [x.2 % cap, (s.pk.length - x.1) % cap]) := by
      have := Tiled.cons w offs.length
        (offs.flatMap fun x => [x.2 % cap, (s.pk.length - x.1) % cap]) [] (flatMap_pair_length _ _ _) .nil
      simpa using this
    exact key _

theorem compactKids_tiled {cap : Nat} (hcap : 0 < cap) : (ks : Kids V) → (s s' : Packed V) → (offs : List (Nat × Nat)) →
    compactKids cap ks s = .ok (s', offs) →
    ∃ x, s'.pk = s.pk ++ x ∧ (∀ c ∈ x, c < cap) ∧ (s'.pk.length ≤ cap → 1 ≤ s.pk.length → Tiled x)
  | .nil, s, s', offs, h => by
    simp only [compactKids, Outcome.ok.injEq, Prod.mk.injEq] at h
    obtain ⟨rfl, rfl⟩ := h
    exact ⟨[], by simp, by simp, fun _ _ => .nil⟩
  | .cons c v k r, s, s', offs, h => by
    simp only [compactKids] at h
    cases h1 : compactKids cap k s with
    | err e => simp [h1] at h
    | ub => simp [h1] at h
    | ok p1 =>
      obtain ⟨s1, offs1⟩ := p1
      simp only [h1] at h
      cases h2 : finishNode cap v offs1 s1 with
      | err e => simp [h2] at h
      | ub => simp [h2] at h
      | ok p2 =>
        obtain ⟨s2, off⟩ := p2
        simp only [h2] at h
        cases h3 : compactKids cap r s2 with
        | err e => simp [h3] at h
        | ub => simp [h3] at h
        | ok p3 =>
          obtain ⟨s3, l⟩ := p3
          simp only [h3, Outcome.ok.injEq, Prod.mk.injEq] at h
          obtain ⟨rfl, rfl⟩ := h
          obtain ⟨x1, e1, c1, t1⟩ := compactKids_tiled hcap k s s1 offs1 h1
          obtain ⟨x2, e2, c2, t2⟩ := finishNode_tiled hcap h2
          obtain ⟨x3, e3, c3, t3⟩ := compactKids_tiled hcap r s2 s3 l h3
          have l1 := congrArg List.length e1
          have l2 := congrArg List.length e2
          have l3 := congrArg List.length e3
          simp only [List.length_append] at l1 l2 l3
          refine ⟨x1 ++ x2 ++ x3, by rw [e3, e2, e1]; simp, ?_, ?_⟩
          · intro y hy
            simp only [List.mem_append] at hy
            rcases hy with (hy | hy) | hy
            · exact c1 y hy
            · exact c2 y hy
            · exact c3 y hy
          · intro hr hp
            exact ((t1 (by omega) hp).append (t2 (by omega) (by omega))).append (t3 hr (by omega))

theorem pack_tiled {cap : Nat} (hcap : 0 < cap) (t : Node V) (p : Packed V) (h : pack cap t = .ok p) :
    ∃ r l, p.pk = r :: l ∧ (∀ c ∈ p.pk, c < cap) ∧ (p.pk.length ≤ cap → Tiled l) := by
  unfold pack at h
  cases h1 : compactKids cap t.kids ⟨[0], []⟩ with
  | err e => rw [h1] at h; cases h
  | ub => rw [h1] at h; cases h
  | ok z =>
    obtain ⟨s1, offs⟩ := z
    rw [h1] at h
    simp only at h
    cases h2 : finishNode cap t.val offs s1 with
    | err e => rw [h2] at h; cases h
    | ub => rw [h2] at h; cases h
    | ok z =>
      obtain ⟨s2, off⟩ := z
      rw [h2] at h
      simp only [Outcome.ok.injEq] at h
      obtain ⟨x1, e1, c1, t1⟩ := compactKids_tiled hcap t.kids _ s1 offs h1
      obtain ⟨x2, e2, c2, t2⟩ := finishNode_tiled hcap h2
      have hpk : p.pk = (off % cap) :: (x1 ++ x2) := by
        rw [← h]; simp only; rw [e2, e1]; simp
      have l2 : s2.pk.length = p.pk.length := by rw [← h]; simp
      have l1 : s1.pk.length = 1 + x1.length := by rw [e1]; simp; omega
      have l3 : p.pk.length = 1 + x1.length + x2.length := by rw [hpk]; simp; omega
      refine ⟨_, _, hpk, ?_, fun hr => (t1 (by omega) (by simp)).append (t2 (by omega) (by omega))⟩
      intro c hc
      rw [hpk] at hc
      simp only [List.mem_cons, List.mem_append] at hc
      rcases hc with rfl | hc | hc
      · exact Nat.mod_lt _ hcap
      · exact c1 c hc
      · exact c2 c hc

end Mdds.Packed
