import Verif.Packed.State
import Verif.Packed.Props

/-!
# packed_trie_map: saving and loading (C22)
-/
namespace Mdds.Packed
open Mdds.Trie

variable {V : Type}

/-! ## the serializers of the library satisfy the law -/

theorem numSer_lawful (sz : Nat) (h : sz < 256 ^ 4) : Lawful (numSer sz) (fun v => v < 256 ^ sz) where
  round v s hv := by
    simp only [numSer, le_length, if_pos]
    exact rdInt_le sz v s hv
  fixed _ v _ := by simp [numSer, le_length]
  size _ := h
  bound hh := by simp [numSer] at hh

theorem seqSer_lawful (sz : Nat) (h : 0 < sz) :
    Lawful (seqSer sz) (fun v => (∀ x ∈ v, x < 256 ^ sz) ∧ sz * v.length < 256 ^ 4) where
  round v s hv := by
    have hl : (v.flatMap (le sz)).length = sz * v.length := by
      clear hv
      induction v with
      | nil => rfl
      | cons a l ih => simp [le_length, ih, Nat.mul_add]; omega
    simp only [seqSer, hl, Nat.mul_div_cancel_left _ h]
    exact rdElems_spec sz v s hv.1
  fixed hh := by simp [seqSer] at hh
  size hh := by simp [seqSer] at hh
  bound _ v hv := by
    have hl : (v.flatMap (le sz)).length = sz * v.length := by
      clear hv
      induction v with
      | nil => rfl
      | cons a l ih => simp [le_length, ih, Nat.mul_add]; omega
    simp only [seqSer, hl]
    exact hv.2

theorem strSer_lawful : Lawful strSer (fun v => v.length < 256 ^ 4) where
  round v s _ := rdN_append v s
  fixed hh := by simp [strSer] at hh
  size hh := by simp [strSer] at hh
  bound _ v hv := hv

/-- A state which `save_state` can be called on: default constructed, or packed from a trie without
truncation. -/
inductive Storable (cap : Nat) : Packed V → Prop
  | default : Storable cap defaultPacked
  | packed (t : Node V) (p : Packed V) (h : pack cap t = .ok p) (room : p.pk.length ≤ cap) : Storable cap p

theorem Storable.shape {cap : Nat} (hcap : 2 ≤ cap) {p : Packed V} (h : Storable cap p) :
    ∃ r l, p.pk = r :: l ∧ (∀ c ∈ p.pk, c < cap) ∧ Tiled l := by
  cases h with
  | default =>
    refine ⟨1, [0, 0], rfl, ?_, Tiled.cons 0 0 [] [] rfl .nil⟩
    intro c hc
    simp only [defaultPacked, List.mem_cons, List.not_mem_nil, or_false] at hc
    omega
  | packed t p h room =>
    obtain ⟨r, l, h1, h2, h3⟩ := pack_tiled (by omega) t p h
    exact ⟨r, l, h1, h2, h3 room⟩

/-- **C22** What `save_state` writes, `load_state` reads back: the container read into ends up with exactly the
saved state, whatever it held before, the call succeeds, and the stream is positioned right after the
saved bytes. For every serializer that reads back what it writes. -/
theorem C22_roundtrip (f : Ser V) (valid : V → Prop) (hf : Lawful f valid) (pvt : Nat) (h0 : 0 < pvt) (h1 : pvt < 256)
    (p : Packed V) (hp : Storable (256 ^ pvt) p) (hv : ∀ v ∈ p.vals, valid v)
    (hn : p.vals.length < 2 ^ 32) (hk : p.pk.length < 2 ^ 64) :
    ∃ bytes, save f pvt p = .ok bytes ∧ ∀ (q : Packed V) (rest : List Nat), load f pvt q (bytes ++ rest) = (p, .ok rest) := by
  have hcap : 2 ≤ 256 ^ pvt := by
    calc 2 ≤ 256 ^ 1 := by omega
      _ ≤ 256 ^ pvt := Nat.pow_le_pow_right (by omega) h0
  obtain ⟨r, l, hpk, hlt, ht⟩ := hp.shape hcap
  have hwb : walkBuffer p.pk = .ok p.pk := by rw [hpk]; exact walkBuffer_spec r l ht
  obtain ⟨bs, hw, -⟩ := readVals_spec f valid hf p.vals [] hv
  refine ⟨_, by unfold save; rw [hw, obind_ok, hwb, obind_ok], ?_⟩
  intro q rest
  unfold load
  simp only [List.append_assoc]
  have hrv : ∀ s, readVals f p.vals.length (bs ++ s) = .ok (p.vals, s) := by
    intro s
    obtain ⟨bs', hw', hr⟩ := readVals_spec f valid hf p.vals s hv
    rw [hw] at hw'
    cases hw'
    exact hr
  rw [rdInt_le 2 _ _ (by split <;> decide), obind_ok]
  have hfl : decide ((if f.varSize = true then 1 else 0) % 2 = 1) = f.varSize := by cases f.varSize <;> rfl
  simp only [hfl, ne_eq, not_true_eq_false, if_false]
  rw [rdInt_le 4 _ _ (by simpa using hn), obind_ok]
  simp only [hrv]
  have h255 : ∀ s, rdInt 1 ([255] ++ s) = .ok (255, s) := fun s => rdInt_le 1 255 s (by decide)
  have hcells : loadCells pvt ([255] ++ (le 1 pvt ++ (le 8 p.pk.length ++ (List.flatMap (le pvt) p.pk ++ ([255] ++ rest)))))
      = .ok (p.pk, rest) := by
    unfold loadCells
    rw [h255, obind_ok]
    simp only [ne_eq, not_true_eq_false, if_false]
    rw [rdInt_le 1 _ _ (by simpa using h1), obind_ok]
    simp only [not_true_eq_false, if_false]
    rw [rdInt_le 8 _ _ (by simpa using hk), obind_ok, rdElems_spec pvt p.pk _ hlt, obind_ok, h255, obind_ok]
    simp only [not_true_eq_false, if_false]
    rw [hwb, obind_ok]
  rw [hcells]

/-- **C22** Loading with a serializer of the other kind (fixed against variable size) is rejected and changes
nothing. -/
theorem C22_kind_mismatch {W : Type} (f : Ser V) (g : Ser W) (pvt pvt' : Nat) (p : Packed V) (bytes : List Nat)
    (hs : save f pvt p = .ok bytes) (hne : f.varSize ≠ g.varSize) (q : Packed W) (rest : List Nat) :
    load g pvt' q (bytes ++ rest) = (q, .err .invalidArg) := by
  unfold save at hs
  cases hw : writeVals f p.vals with
  | err e => rw [hw] at hs; cases hs
  | ub => rw [hw] at hs; cases hs
  | ok bs =>
    rw [hw, obind_ok] at hs
    cases hb : walkBuffer p.pk with
    | err e => rw [hb] at hs; cases hs
    | ub => rw [hb] at hs; cases hs
    | ok cs =>
      rw [hb, obind_ok, Outcome.ok.injEq] at hs
      subst hs
      unfold load
      simp only [List.append_assoc]
      rw [rdInt_le 2 _ _ (by split <;> decide), obind_ok]
      have hfl : decide ((if f.varSize = true then 1 else 0) % 2 = 1) = f.varSize := by cases f.varSize <;> rfl
      simp only [hfl, if_pos hne]

/-- **C22** Loading with a fixed-size serializer of another value size is rejected and changes nothing. -/
theorem C22_size_mismatch {W : Type} (f : Ser V) (g : Ser W) (pvt pvt' : Nat) (p : Packed V) (bytes : List Nat)
    (hs : save f pvt p = .ok bytes) (hf : f.varSize = false) (hg : g.varSize = false) (hsz : f.size < 2 ^ 32)
    (hn : p.vals.length < 2 ^ 32) (hne : f.size ≠ g.size) (q : Packed W) (rest : List Nat) :
    load g pvt' q (bytes ++ rest) = (q, .err .invalidArg) := by
  unfold save writeVals at hs
  simp only [hf, Bool.false_eq_true, if_false] at hs
  cases hw : writeFixed f p.vals with
  | err e => rw [hw] at hs; cases hs
  | ub => rw [hw] at hs; cases hs
  | ok bs =>
    rw [hw] at hs
    simp only [Outcome.map, obind_ok] at hs
    cases hb : walkBuffer p.pk with
    | err e => rw [hb] at hs; cases hs
    | ub => rw [hb] at hs; cases hs
    | ok cs =>
      rw [hb, obind_ok, Outcome.ok.injEq] at hs
      subst hs
      unfold load
      simp only [List.append_assoc]
      rw [rdInt_le 2 _ _ (by decide), obind_ok]
      simp only [hg, Nat.zero_mod, Nat.zero_ne_one, decide_false, ne_eq, not_true_eq_false, if_false]
      rw [rdInt_le 4 _ _ (by simpa using hn), obind_ok]
      unfold readVals
      simp only [hg, Bool.false_eq_true, if_false]
      rw [rdInt_le 4 _ _ (by simpa using hsz), obind_ok]
      rw [if_pos hne]

/-- **C22** A saved state of a container with another cell width is rejected. -/
theorem C22_cell_mismatch (f : Ser V) (valid : V → Prop) (hf : Lawful f valid) (pvt pvt' : Nat) (h1 : pvt < 256)
    (p : Packed V) (bytes : List Nat) (hs : save f pvt p = .ok bytes) (hv : ∀ v ∈ p.vals, valid v)
    (hn : p.vals.length < 2 ^ 32) (hne : pvt ≠ pvt') (q : Packed V) (rest : List Nat) :
    (load f pvt' q (bytes ++ rest)).2 = .err .invalidArg := by
  unfold save at hs
  obtain ⟨bs, hw, -⟩ := readVals_spec f valid hf p.vals [] hv
  rw [hw, obind_ok] at hs
  cases hb : walkBuffer p.pk with
  | err e => rw [hb] at hs; cases hs
  | ub => rw [hb] at hs; cases hs
  | ok cs =>
    rw [hb, obind_ok, Outcome.ok.injEq] at hs
    subst hs
    have hrv : ∀ s, readVals f p.vals.length (bs ++ s) = .ok (p.vals, s) := by
      intro s
      obtain ⟨bs', hw', hr⟩ := readVals_spec f valid hf p.vals s hv
      rw [hw] at hw'
      cases hw'
      exact hr
    unfold load
    simp only [List.append_assoc]
    rw [rdInt_le 2 _ _ (by split <;> decide), obind_ok]
    have hfl : decide ((if f.varSize = true then 1 else 0) % 2 = 1) = f.varSize := by cases f.varSize <;> rfl
    simp only [hfl, ne_eq, not_true_eq_false, if_false]
    rw [rdInt_le 4 _ _ (by simpa using hn), obind_ok]
    simp only [hrv]
    have h255 : ∀ s, rdInt 1 ([255] ++ s) = .ok (255, s) := fun s => rdInt_le 1 255 s (by decide)
    unfold loadCells
    rw [h255, obind_ok]
    simp only [ne_eq, not_true_eq_false, if_false]
    rw [rdInt_le 1 _ _ (by simpa using h1), obind_ok]
    simp only [hne, not_false_eq_true, if_true]

/-- The packed form of `exAll`, 1-byte cells, 1-byte values. -/
def exPacked : Packed Nat := ⟨[13, 0, 0, 255, 2, 100, 2, 1, 2, 98, 4, 2, 0, 3, 4, 97, 6, 98, 2], [2, 1, 3, 0]⟩

/-- The hypotheses hold for it. -/
example : pack 256 exAll = .ok exPacked ∧ Storable (256 ^ 1) exPacked ∧ (∀ v ∈ exPacked.vals, v < 256 ^ 1) ∧
    ∃ bytes, save (numSer 1) 1 exPacked = .ok bytes ∧ load (numSer 1) 1 defaultPacked (bytes ++ [7]) = (exPacked, .ok [7]) := by
  have hs : Storable (256 ^ 1) exPacked := .packed exAll exPacked (by decide) (by decide)
  refine ⟨by decide, hs, by decide, ?_⟩
  obtain ⟨bytes, h1, h2⟩ := C22_roundtrip (numSer 1) _ (numSer_lawful 1 (by decide)) 1 (by decide) (by decide) exPacked hs
    (by decide) (by decide) (by decide)
  exact ⟨bytes, h1, h2 _ _⟩

/-- **C22 does not extend to rejected input**: a rejected `load_state` has already replaced the stored
values. The container held the key `"a"` with value 5; a state saved with 2-byte cells (value 9) is
rejected, but afterwards the value is 9. -/
theorem C22_rejected_load_fails :
    ∃ (p q : Packed Nat) (bytes : List Nat), pack 256 (run empty [.insert [97] 5]) = .ok q ∧
      pack 65536 (run empty [.insert [97] 9]) = .ok p ∧
      save (numSer 1) 2 p = .ok bytes ∧ (load (numSer 1) 1 q bytes).2 = .err .invalidArg ∧
      (pFind 256 q [97]).map (pDeref q.vals) = .ok (some ([97], 5)) ∧
      (pFind 256 (load (numSer 1) 1 q bytes).1 [97]).map (pDeref (load (numSer 1) 1 q bytes).1.vals) = .ok (some ([97], 9)) :=
  ⟨⟨[3, 0, 0, 65535, 2, 97, 2], [9]⟩, ⟨[3, 0, 0, 255, 2, 97, 2], [5]⟩,
    [0, 0, 1, 0, 0, 0, 1, 0, 0, 0, 9, 255, 2, 7, 0, 0, 0, 0, 0, 0, 0, 3, 0, 0, 0, 0, 0, 255, 255, 2, 0, 97, 0, 2, 0, 255],
    by decide, by decide, by decide, by decide, by decide, by decide⟩

end Mdds.Packed
