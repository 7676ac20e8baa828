import Verif.Packed.Lemmas

/-!
# packed_trie_map: the copy constructor

Model of the copy constructor and of `traverse_tree`, and the proof that the copy represents the same trie.  The
copy takes over the buffer, walks it and numbers the values anew in the order of the walk, writing the new numbers
into the buffer it walks.
-/
namespace Mdds.Packed
open Mdds.Trie

variable {V : Type}

/-- `_handler::node` of the copy constructor (`tm.inl` 1356-1369): `other` is the value store of the source, `s` the
new map; the number of the value is read from the new map's own buffer. -/
def visit (cap : Nat) (other : List V) (node : Nat) (s : Packed V) : Outcome (Packed V) :=
  (rd s.pk node).bind fun v =>
    if v = nullValue cap then .ok s
    else (Outcome.ofOption other[v]?).bind fun x => .ok ⟨s.pk.set node (s.vals.length % cap), s.vals ++ [x]⟩

/-- The loops of `traverse_tree` (`tm.inl` 1907-1965) with that handler, one step at a time: `true` is the loop that
descends (the top of the stack is the node whose slot `pos` is followed), `false` the loop that ascends.  Each step
uses one unit of fuel. -/
def trav (cap : Nat) (other : List V) : Nat → Bool → List Item → Packed V → Outcome (Packed V)
  | f + 1, true, top :: st, s =>
    (rd s.pk top.pos).bind fun _ => (rd s.pk (top.pos + 1)).bind fun d =>
      if d ≤ top.node then
        (rd s.pk (top.node - d + 1)).bind fun idx =>
          (visit cap other (top.node - d) s).bind fun s' =>
            trav cap other f (idx ≠ 0) (⟨top.node - d, top.node - d + 2, top.node - d + 2 + idx⟩ :: top :: st) s'
      else .ub
  | f + 1, false, _ :: si :: st, s =>
    if si.pos + 2 ≠ si.end_ then trav cap other f true (⟨si.node, si.pos + 2, si.end_⟩ :: st) s
    else if st = [] then .ok s
    else trav cap other f false (⟨si.node, si.pos + 2, si.end_⟩ :: st) s
  | _, _, _, _ => .ub

/-- Copy constructor (`tm.inl` 1348-1389) with the head of `traverse_tree` (`tm.inl` 1886-1906). -/
def copy (cap fuel : Nat) (p : Packed V) : Outcome (Packed V) :=
  (rd p.pk 0).bind fun r => (rd p.pk (r + 1)).bind fun idx =>
    (visit cap p.vals r ⟨p.pk, []⟩).bind fun s =>
      if idx = 0 then .ok s else trav cap p.vals fuel true [⟨r, r + 2, r + 2 + idx⟩] s

/-- Move constructor (`tm.inl` 1391-1398): the new map and what is left in the source. -/
def move (p : Packed V) : Packed V × Packed V := (p, ⟨[1, 0, 0], []⟩)

/-- `operator=` (`tm.inl` 1400-1406) from an lvalue: the argument is copied, moved to a temporary and swapped. -/
def assign (cap fuel : Nat) (_old : Packed V) (src : Packed V) : Outcome (Packed V) :=
  (copy cap fuel src).bind fun q => .ok (move q).1

/-! ### Where the nodes lie -/

/-- The nodes below the slots `i`, `i + 1`, ... of the node at `off` lie one after the other in the cells from `lo` to
`off`, each after its own subtree. -/
def Lay (pk : List Nat) (off : Nat) : Nat → Nat → Kids V → Prop
  | _, lo, .nil => lo ≤ off
  | i, lo, .cons _ _ k r => ∃ d, pk[off + 2 + 2 * i + 1]? = some d ∧ d ≤ off ∧ lo ≤ off - d ∧
      off - d + 2 + 2 * k.length ≤ off ∧ Lay pk (off - d) 0 lo k ∧ Lay pk off (i + 1) (off - d + 2 + 2 * k.length) r

def LayOffs (pk : List Nat) (top : Nat) : Nat → List (Nat × Nat) → Kids V → Prop
  | lo, [], .nil => lo ≤ top
  | lo, (o, _) :: l, .cons _ _ k r => lo ≤ o ∧ o + 2 + 2 * k.length ≤ top ∧ Lay pk o 0 lo k ∧
      LayOffs pk top (o + 2 + 2 * k.length) l r
  | _, _, _ => False

theorem Lay.le {pk : List Nat} {off : Nat} : (ks : Kids V) → (i lo : Nat) → Lay pk off i lo ks → lo ≤ off
  | .nil, _, _, h => h
  | .cons _ _ k r, _, _, ⟨d, _, _, h3, h4, _, _⟩ => by omega

theorem Lay.mono {pk pk' : List Nat} (hp : ∀ i x, 1 ≤ i → pk[i]? = some x → pk'[i]? = some x) :
    (ks : Kids V) → (off i lo : Nat) → Lay pk off i lo ks → Lay pk' off i lo ks
  | .nil, _, _, _, h => h
  | .cons c v k r, off, i, lo, ⟨d, h1, h2, h3, h4, h5, h6⟩ =>
    ⟨d, hp _ _ (by omega) h1, h2, h3, h4, Lay.mono hp k _ _ _ h5, Lay.mono hp r _ _ _ h6⟩

theorem LayOffs.mono {pk pk' : List Nat} (hp : ∀ i x, 1 ≤ i → pk[i]? = some x → pk'[i]? = some x) {top top' : Nat}
    (ht : top ≤ top') : (l : List (Nat × Nat)) → (ks : Kids V) → (lo : Nat) → LayOffs pk top lo l ks → LayOffs pk' top' lo l ks
  | [], .nil, _, h => Nat.le_trans h ht
  | [], .cons _ _ _ _, _, h => h.elim
  | _ :: _, .nil, _, h => h.elim
  | (o, c') :: l, .cons c v k r, lo, ⟨h1, h2, h3, h4⟩ => ⟨h1, by omega, h3.mono hp, LayOffs.mono hp ht l r _ h4⟩

theorem lay_slots {cap : Nat} (off : Nat) (hoff : off < cap) (pk : List Nat) : (l : List (Nat × Nat)) → (ks : Kids V) →
    (i lo : Nat) → (pk.drop (off + 2 + 2 * i) = l.flatMap fun x => [x.2 % cap, (off - x.1) % cap]) →
    LayOffs pk off lo l ks → Lay pk off i lo ks
  | [], .nil, _, _, _, h => h
  | [], .cons _ _ _ _, _, _, _, h => h.elim
  | _ :: _, .nil, _, _, _, h => h.elim
  | (o, c') :: l, .cons c v k r, i, lo, hs, ⟨h1, h2, h3, h4⟩ => by
    simp only [List.flatMap_cons] at hs
    have e2 : pk[off + 2 + 2 * i + 1]? = some (off - o) := by
      have := congrArg (fun l => l[1]?) hs
      simp only [List.getElem?_drop] at this
      rw [this]
      simp [Nat.mod_eq_of_lt (show off - o < cap by omega)]
    have e3 : pk.drop (off + 2 + 2 * (i + 1)) = l.flatMap fun x => [x.2 % cap, (off - x.1) % cap] := by
      have := congrArg (fun l => l.drop 2) hs
      simp only [List.drop_drop] at this
      rw [show off + 2 + 2 * (i + 1) = off + 2 + 2 * i + 2 by omega, this]
      simp
    have e : off - (off - o) = o := by omega
    refine ⟨off - o, e2, by omega, by omega, by omega, by rw [e]; exact h3, ?_⟩
    rw [e]
    exact lay_slots off hoff pk l r (i + 1) _ e3 h4

theorem LayOffs.length {pk : List Nat} {top : Nat} : (l : List (Nat × Nat)) → (ks : Kids V) → (lo : Nat) →
    LayOffs pk top lo l ks → l.length = ks.length
  | [], .nil, _, _ => rfl
  | [], .cons _ _ _ _, _, h => h.elim
  | _ :: _, .nil, _, h => h.elim
  | (o, c') :: l, .cons c v k r, lo, h => by
    simp only [List.length_cons, Kids.length]
    rw [LayOffs.length l r _ h.2.2.2]

theorem finishNode_lay {cap : Nat} {v : Option V} {ks : Kids V} {offs : List (Nat × Nat)} {s s' : Packed V} {off lo : Nat}
    (he : LayOffs s.pk s.pk.length lo offs ks) (h : finishNode cap v offs s = .ok (s', off)) (hc : s'.pk.length ≤ cap) :
    Lay s'.pk off 0 lo ks ∧ s'.pk.length = off + 2 + 2 * ks.length := by
  obtain ⟨rfl, hv, hval, hpk⟩ := finishNode_ok h
  have hlen : s'.pk.length = s.pk.length + 2 + 2 * offs.length := by
    rw [hpk]; simp only [List.length_append, List.length_cons, flatMap_pair_length]; omega
  have mp : ∀ i x, 1 ≤ i → s.pk[i]? = some x → s'.pk[i]? = some x := by
    intro i x _ hx; rw [hpk]; exact getElem?_append_mono _ _ _ _ hx
  refine ⟨lay_slots (cap := cap) s.pk.length (by omega) s'.pk offs ks 0 lo ?_ (he.mono mp (Nat.le_refl _)), ?_⟩
  · rw [hpk, show s.pk.length + 2 + 2 * 0 = s.pk.length + 2 by omega, ← List.drop_drop, List.drop_left]
    rfl
  · rw [hlen, LayOffs.length _ _ _ he]

theorem compactKids_lay {cap : Nat} : (ks : Kids V) → (s s' : Packed V) → (offs : List (Nat × Nat)) →
    compactKids cap ks s = .ok (s', offs) → s'.pk.length ≤ cap → LayOffs s'.pk s'.pk.length s.pk.length offs ks
  | .nil, s, s', offs, h, _ => by
    simp only [compactKids, Outcome.ok.injEq, Prod.mk.injEq] at h
    obtain ⟨rfl, rfl⟩ := h
    exact Nat.le_refl _
  | .cons c v k r, s, s', offs, h, hc => by
    simp only [compactKids] at h
    cases h1 : compactKids cap k s with
    | err e => simp [h1] at h
    | ub => simp [h1] at h
    | ok p1 =>
      obtain ⟨s1, offs1⟩ := p1
      simp only [h1] at h
      cases h2 : finishNode cap v offs1 s1 with
      | err e => simp [h2] at h
      | ub => simp [h2] at h
      | ok p2 =>
        obtain ⟨s2, off⟩ := p2
        simp only [h2] at h
        cases h3 : compactKids cap r s2 with
        | err e => simp [h3] at h
        | ub => simp [h3] at h
        | ok p3 =>
          obtain ⟨s3, l⟩ := p3
          simp only [h3, Outcome.ok.injEq, Prod.mk.injEq] at h
          obtain ⟨rfl, rfl⟩ := h
          obtain ⟨⟨x1, e1⟩, -, -⟩ := compactKids_spec k s s1 offs1 h1
          obtain ⟨⟨x3, e3⟩, -, -⟩ := compactKids_spec r s2 s3 l h3
          obtain ⟨ho, -, -, hp2⟩ := finishNode_ok h2
          have l1 : s.pk.length ≤ s1.pk.length := by rw [e1]; simp
          have l2 : s1.pk.length ≤ s2.pk.length := by rw [hp2]; simp
          have l3 : s2.pk.length ≤ s3.pk.length := by rw [e3]; simp
          have q1 := compactKids_lay k s s1 offs1 h1 (by omega)
          have q3 := compactKids_lay r s2 s3 l h3 hc
          obtain ⟨g1, g2⟩ := finishNode_lay q1 h2 (by omega)
          have mp : ∀ i x, 1 ≤ i → s2.pk[i]? = some x → s3.pk[i]? = some x := by
            intro i x _ hx; rw [e3]; exact getElem?_append_mono _ _ _ _ hx
          refine ⟨by omega, by omega, g1.mono mp, ?_⟩
          rw [← g2]; exact q3

/-- The node at `off` represents `n`, and the nodes below lie as in `Lay`. -/
structure Form (cap : Nat) (p : Packed V) (off : Nat) (n : Node V) : Prop where
  enc : Enc cap p.pk p.vals off n
  lay : Lay p.pk off 0 1 n.kids

/-! ### Agreement of buffers -/

theorem EncHead.congr {cap : Nat} {pk pk' : List Nat} {vals vals' : List V} {off : Nat} {v : Option V} {len : Nat}
    (h0 : pk'[off]? = pk[off]?) (h1 : pk'[off + 1]? = pk[off + 1]?)
    (hv : ∀ (i : Nat) (x : V), vals[i]? = some x → vals'[i]? = some x)
    (h : EncHead cap pk vals off v len) : EncHead cap pk' vals' off v len where
  pos := h.pos
  vnone e := by rw [h0]; exact h.vnone e
  vsome x e := by
    obtain ⟨i, g1, g2, g3⟩ := h.vsome x e
    exact ⟨i, by rw [h0]; exact g1, g2, hv _ _ g3⟩
  size := by rw [h1]; exact h.size

/-- What is encoded below `off` only depends on the cells from `lo` to `off` and the slots. -/
theorem enc_congr {cap : Nat} {pk pk' : List Nat} {vals vals' : List V}
    (hv : ∀ (i : Nat) (x : V), vals[i]? = some x → vals'[i]? = some x) :
    (ks : Kids V) → (off i lo : Nat) →
    (∀ j, (lo ≤ j ∧ j < off) ∨ (off + 2 + 2 * i ≤ j ∧ j < off + 2 + 2 * i + 2 * ks.length) → pk'[j]? = pk[j]?) →
    Lay pk off i lo ks → EncK cap pk vals off i ks → Lay pk' off i lo ks ∧ EncK cap pk' vals' off i ks
  | .nil, _, _, _, _, hl, _ => ⟨hl, trivial⟩
  | .cons c v k r, off, i, lo, ha, ⟨d, h1, h2, h3, h4, h5, h6⟩, ⟨⟨d', g1, g2, g3, g4, g5⟩, g6⟩ => by
    have hd : d' = d := by rw [h1] at g2; exact (Option.some.inj g2).symm
    subst hd
    simp only [Kids.length] at ha
    have hle := h5.le
    obtain ⟨a1, a2⟩ := enc_congr hv k (off - d') 0 lo (fun j hj => ha j (Or.inl (by omega))) h5 g5
    obtain ⟨b1, b2⟩ := enc_congr hv r off (i + 1) _ (fun j hj => ha j (by omega)) h6 g6
    refine ⟨⟨d', by rw [ha _ (Or.inr (by omega))]; exact h1, h2, h3, h4, a1, b1⟩,
      ⟨d', by rw [ha _ (Or.inr (by omega))]; exact g1, by rw [ha _ (Or.inr (by omega))]; exact g2, g3, ?_, a2⟩, b2⟩
    exact g4.congr (ha _ (Or.inl (by omega))) (ha _ (Or.inl (by omega))) hv

/-! ### The walk -/

theorem visit_ok {cap : Nat} {other : List V} {off len : Nat} {v : Option V} {s : Packed V}
    (hb : s.vals.length < maxValuePos cap ∨ v = none) {pk : List Nat} (h : EncHead cap pk other off v len)
    (h0 : s.pk[off]? = pk[off]?) (h1 : s.pk[off + 1]? = pk[off + 1]?) :
    ∃ s', visit cap other off s = .ok s' ∧ s'.vals = s.vals ++ v.toList ∧ (∀ j, j ≠ off → s'.pk[j]? = s.pk[j]?) ∧
      s'.pk.length = s.pk.length ∧ EncHead cap s'.pk s'.vals off v len := by
  cases v with
  | none =>
    have e : s.pk[off]? = some (nullValue cap) := by rw [h0]; exact h.vnone rfl
    exact ⟨s, by simp [visit, rd_of e], by simp, fun _ _ => rfl, rfl,
      ⟨h.pos, fun _ => e, fun x hx => by (cases hx), by rw [h1]; exact h.size⟩⟩
  | some x =>
    obtain ⟨i, g1, g2, g3⟩ := h.vsome x rfl
    have e : s.pk[off]? = some i := by rw [h0]; exact g1
    have hb' : s.vals.length < maxValuePos cap := by simpa using hb
    unfold maxValuePos nullValue at hb'
    have hm : s.vals.length % cap = s.vals.length := Nat.mod_eq_of_lt (by omega)
    have hlt : off < s.pk.length := (List.getElem?_eq_some_iff.1 e).1
    refine ⟨⟨s.pk.set off s.vals.length, s.vals ++ [x]⟩, by simp [visit, rd_of e, g2, g3, hm], rfl, ?_, by simp, ?_⟩
    · intro j hj; exact List.getElem?_set_ne (Ne.symm hj)
    · refine ⟨h.pos, fun hx => by (cases hx), fun y hy => ?_, ?_⟩
      · cases hy
        exact ⟨s.vals.length, List.getElem?_set_self hlt, by unfold nullValue; omega, by simp⟩
      · show (s.pk.set off s.vals.length)[off + 1]? = _
        rw [List.getElem?_set_ne (by omega), h1]; exact h.size

theorem trav_spec {cap : Nat} {pk : List Nat} {other : List V} : (ks : Kids V) → (off i lo e : Nat) → ks ≠ .nil →
    Lay pk off i lo ks → EncK cap pk other off i ks → (s : Packed V) →
    (∀ j, (lo ≤ j ∧ j < off) ∨ (off + 2 + 2 * i ≤ j ∧ j < off + 2 + 2 * i + 2 * ks.length) → s.pk[j]? = pk[j]?) →
    s.vals.length + ks.count ≤ maxValuePos cap → e = off + 2 + 2 * i + 2 * ks.length →
    ∃ n s' y, (∀ f st, trav cap other (f + n) true (⟨off, off + 2 + 2 * i, e⟩ :: st) s =
        trav cap other f false (y :: ⟨off, e - 2, e⟩ :: st) s') ∧
      n ≤ 4 * cells ks ∧
      (∀ j, j < lo ∨ off ≤ j → s'.pk[j]? = s.pk[j]?) ∧ s'.pk.length = s.pk.length ∧
      (∃ ys, s'.vals = s.vals ++ ys ∧ ys.length = ks.count) ∧
      Lay s'.pk off i lo ks ∧ EncK cap s'.pk s'.vals off i ks
  | .nil, _, _, _, _, hne, _, _, _, _, _, _ => absurd rfl hne
  | .cons c v k r, off, i, lo, e, _, hl, hk, s, ha, hb, he => by
    have hl0 := hl
    have hk0 := hk
    obtain ⟨d, h1, h2, h3, h4, h5, h6⟩ := hl
    obtain ⟨⟨d', g1, g2, g3, g4, g5⟩, g6⟩ := hk
    have hd : d' = d := by rw [h1] at g2; exact (Option.some.inj g2).symm
    subst hd
    simp only [Kids.length, Kids.count] at ha hb he
    have hle := h5.le
    have hle' := h6.le
    have q1 : rd s.pk (off + 2 + 2 * i) = .ok c := rd_of (by rw [ha _ (Or.inr (by omega))]; exact g1)
    have q2 : rd s.pk (off + 2 + 2 * i + 1) = .ok d' := rd_of (by rw [ha _ (Or.inr (by omega))]; exact g2)
    have q3 : rd s.pk (off - d' + 1) = .ok (2 * k.length) := rd_of (by rw [ha _ (Or.inl (by omega))]; exact g4.size)
    obtain ⟨s1, v1, v2, v3, v4, v5⟩ := visit_ok (s := s) (by
        cases v with
        | none => exact Or.inr rfl
        | some x => left; simp at hb; omega) g4 (ha _ (Or.inl (by omega))) (ha _ (Or.inl (by omega)))
    have step : ∀ f st, trav cap other (f + 1) true (⟨off, off + 2 + 2 * i, e⟩ :: st) s =
        trav cap other f (2 * k.length ≠ 0) (⟨off - d', off - d' + 2, off - d' + 2 + 2 * k.length⟩ ::
          ⟨off, off + 2 + 2 * i, e⟩ :: st) s1 := by
      intro f st
      simp [trav, q1, q2, q3, v1, h2]
    have hvl : s1.vals.length = s.vals.length + (if v.isSome then 1 else 0) := by rw [v2]; cases v <;> simp
    -- the subtree
    have sub : ∃ n s2 y, (∀ f st, trav cap other (f + n) true (⟨off, off + 2 + 2 * i, e⟩ :: st) s =
        trav cap other f false (y :: ⟨off, off + 2 + 2 * i, e⟩ :: st) s2) ∧ n ≤ 4 * cells k + 2 ∧
        (∀ j, j < lo ∨ off - d' + 2 + 2 * k.length ≤ j → s2.pk[j]? = s.pk[j]?) ∧ s2.pk.length = s.pk.length ∧
        (∃ ys, s2.vals = s.vals ++ ys ∧ ys.length = (if v.isSome then 1 else 0) + k.count) ∧
        EncHead cap s2.pk s2.vals (off - d') v k.length ∧
        Lay s2.pk (off - d') 0 lo k ∧ EncK cap s2.pk s2.vals (off - d') 0 k := by
      by_cases hkn : k = .nil
      · subst hkn
        refine ⟨1, s1, ⟨off - d', off - d' + 2, off - d' + 2⟩, fun f st => ?_, by omega, fun j hj => v3 j (by simp [Kids.length] at hj; omega), v4,
          ⟨v.toList, v2, by cases v <;> simp [Kids.count]⟩, v5, h5, trivial⟩
        rw [step]; simp [Kids.length]
      · have hkl : k.length ≠ 0 := by cases k <;> simp [Kids.length] at hkn ⊢
        obtain ⟨n, s2, y, r1, r2, r3, r4, ⟨ys, r5, r6⟩, r7, r8⟩ := trav_spec (other := other) k (off - d') 0 lo
          (off - d' + 2 + 2 * k.length) hkn h5 g5 s1 (fun j hj => by
            rw [v3 j (by omega)]; exact ha j (Or.inl (by omega))) (by omega) (by omega)
        refine ⟨n + 2, s2, ⟨off - d', off - d' + 2 + 2 * k.length, off - d' + 2 + 2 * k.length⟩, fun f st => ?_, by omega,
          fun j hj => ?_, by omega, ⟨v.toList ++ ys, by rw [r5, v2, List.append_assoc], ?_⟩, ?_, r7, r8⟩
        · rw [show f + (n + 2) = (f + 1 + n) + 1 by omega, step]
          have e1 : decide (2 * k.length ≠ 0) = true := by simp only [decide_eq_true_eq]; omega
          rw [e1]
          have := r1 (f + 1) (⟨off, off + 2 + 2 * i, e⟩ :: st)
          simp only [Nat.mul_zero, Nat.add_zero] at this
          rw [this]
          have e2 : off - d' + 2 + 2 * k.length - 2 + 2 = off - d' + 2 + 2 * k.length := by omega
          simp only [trav, e2, ne_eq, not_true, if_false, reduceCtorEq]
        · rw [r3 j (by omega), v3 j (by omega)]
        · rw [List.length_append, r6]; cases v <;> simp
        · exact v5.congr (r3 _ (by omega)) (r3 _ (by omega)) (fun a b hh => by rw [r5]; exact getElem?_append_mono _ _ _ _ hh)
    obtain ⟨n, s2, y, w1, w2, w3, w4, ⟨ys, w5, w6⟩, w7, w8, w9⟩ := sub
    have hcell : cells (Kids.cons c v k r) = cells k + (2 + 2 * k.length) + cells r := by simp [cells]; try omega
    by_cases hrn : r = .nil
    · subst hrn
      simp only [Kids.length, Kids.count] at he ⊢
      refine ⟨n, s2, y, fun f st => ?_, by omega, fun j hj => w3 j (by omega), w4, ⟨ys, w5, by rw [w6]; omega⟩, ?_, ?_⟩
      · rw [w1, show e - 2 = off + 2 + 2 * i by omega]
      · exact ⟨d', by rw [w3 _ (by omega), ha _ (Or.inr (by simp [Kids.length]))]; exact h1, h2, h3, h4, w8, h6⟩
      · exact ⟨⟨d', by rw [w3 _ (by omega), ha _ (Or.inr (by simp [Kids.length]))]; exact g1,
          by rw [w3 _ (by omega), ha _ (Or.inr (by simp [Kids.length]))]; exact g2, g3, w7, w9⟩, trivial⟩
    · have hrl : r.length ≠ 0 := by cases r <;> simp [Kids.length] at hrn ⊢
      have hl2 : s2.vals.length = s.vals.length + ys.length := by rw [w5]; simp
      obtain ⟨n2, s3, y2, r1, r2, r3, r4, ⟨zs, r5, r6⟩, r7, r8⟩ := trav_spec (other := other) r off (i + 1) _ e hrn h6 g6 s2
        (fun j hj => by rw [w3 j (by omega)]; exact ha j (by omega)) (by omega) (by omega)
      have mv : ∀ (a : Nat) (b : V), s2.vals[a]? = some b → s3.vals[a]? = some b :=
        fun a b hh => by rw [r5]; exact getElem?_append_mono _ _ _ _ hh
      obtain ⟨a1, a2⟩ := enc_congr mv k (off - d') 0 lo (fun j hj => r3 j (by omega)) w8 w9
      refine ⟨n2 + 1 + n, s3, y2, fun f st => ?_, by omega, fun j hj => ?_, by omega,
        ⟨ys ++ zs, by rw [r5, w5, List.append_assoc], by rw [List.length_append, w6, r6, Kids.count]⟩, ?_, ?_⟩
      · rw [show f + (n2 + 1 + n) = (f + n2 + 1) + n by omega, w1]
        have e1 : off + 2 + 2 * i + 2 ≠ e := by omega
        simp only [trav, e1, ne_eq, not_false_eq_true, if_true]
        have := r1 f st
        rw [show off + 2 + 2 * (i + 1) = off + 2 + 2 * i + 2 by omega] at this
        exact this
      · rw [r3 j (by omega), w3 j (by omega)]
      · exact ⟨d', by rw [r3 _ (by omega), w3 _ (by omega), ha _ (Or.inr (by omega))]; exact h1, h2, h3, h4, a1, r7⟩
      · exact ⟨⟨d', by rw [r3 _ (by omega), w3 _ (by omega), ha _ (Or.inr (by omega))]; exact g1,
          by rw [r3 _ (by omega), w3 _ (by omega), ha _ (Or.inr (by omega))]; exact g2, g3,
          w7.congr (r3 _ (by omega)) (r3 _ (by omega)) mv, a2⟩, r8⟩

/-- The copy represents the same trie, in a buffer that differs only in the numbers of the values. -/
theorem copy_spec {cap : Nat} {p : Packed V} {r : Nat} {t : Node V} (h0 : p.pk[0]? = some r) (hf : Form cap p r t)
    (hs : size t ≤ maxValuePos cap) (fuel : Nat) (hfu : 4 * cells t.kids + 1 ≤ fuel) :
    ∃ q, copy cap fuel p = .ok q ∧ q.pk[0]? = some r ∧ Form cap q r t ∧ q.vals.length = size t ∧ q.pk.length = p.pk.length := by
  obtain ⟨⟨hh, hk⟩, hl⟩ := hf
  have hp := hh.pos
  obtain ⟨s1, v1, v2, v3, v4, v5⟩ := visit_ok (s := (⟨p.pk, []⟩ : Packed V)) (by
      cases hv : t.val with
      | none => exact Or.inr rfl
      | some x => left; simp [size, hv] at hs; simp; omega) hh rfl rfl
  have e0 : copy cap fuel p = if 2 * t.kids.length = 0 then .ok s1 else
      trav cap p.vals fuel true [⟨r, r + 2, r + 2 + 2 * t.kids.length⟩] s1 := by
    simp only [copy, rd_of h0, rd_of hh.size, obind_ok, v1]
  by_cases hkn : t.kids = .nil
  · refine ⟨s1, by rw [e0, hkn]; simp [Kids.length], by rw [v3 _ (by omega)]; exact h0, ⟨⟨v5, ?_⟩, ?_⟩, ?_, v4⟩
    · rw [hkn]; trivial
    · rw [hkn] at hl ⊢; exact hl
    · rw [v2]; cases hv : t.val <;> simp [size, hv, hkn, Kids.count]
  · have hkl : t.kids.length ≠ 0 := by cases h : t.kids <;> simp [Kids.length, h] at hkn ⊢
    have hvl : s1.vals.length = if t.val.isSome then 1 else 0 := by rw [v2]; cases t.val <;> simp
    obtain ⟨n, s2, y, r1, r2, r3, r4, ⟨ys, r5, r6⟩, r7, r8⟩ := trav_spec (other := p.vals) t.kids r 0 1
      (r + 2 + 2 * t.kids.length) hkn hl hk s1 (fun j hj => v3 j (by omega)) (by unfold size at hs; omega) (by omega)
    have := r1 (fuel - n) []
    obtain ⟨m, hm⟩ : ∃ m, fuel - n = m + 1 := ⟨fuel - n - 1, by omega⟩
    rw [show fuel - n + n = fuel by omega] at this
    simp only [Nat.mul_zero, Nat.add_zero] at this
    refine ⟨s2, ?_, ?_, ⟨⟨?_, r8⟩, r7⟩, ?_, by rw [r4, v4]⟩
    · rw [e0, if_neg (by omega), this, hm]
      have e2 : r + 2 + 2 * t.kids.length - 2 + 2 = r + 2 + 2 * t.kids.length := by omega
      simp only [trav, e2, ne_eq, not_true, if_false, if_true]
    · rw [r3 _ (by omega), v3 _ (by omega)]; exact h0
    · exact v5.congr (r3 _ (by omega)) (r3 _ (by omega)) (fun a b hh => by rw [r5]; exact getElem?_append_mono _ _ _ _ hh)
    · rw [r5, List.length_append, hvl, r6, size]

/-! ### More fuel, same result; length of the buffer -/

theorem trav_mono {cap : Nat} {other : List V} : ∀ (f : Nat) (b : Bool) (st : List Item) (s q : Packed V),
    trav cap other f b st s = .ok q → trav cap other (f + 1) b st s = .ok q := by
  intro f
  induction f with
  | zero => intro b st s q h; simp [trav] at h
  | succ f ih =>
    intro b st s q h
    cases b with
    | true =>
      cases st with
      | nil => simp [trav] at h
      | cons top st =>
        rw [trav] at h ⊢
        cases e1 : rd s.pk top.pos with
        | err x => simp [e1] at h
        | ub => simp [e1] at h
        | ok c =>
          cases e2 : rd s.pk (top.pos + 1) with
          | err x => simp [e1, e2] at h
          | ub => simp [e1, e2] at h
          | ok d =>
            simp only [e1, e2, obind_ok] at h ⊢
            split at h
            · rename_i hd
              rw [if_pos hd]
              cases e3 : rd s.pk (top.node - d + 1) with
              | err x => simp [e3] at h
              | ub => simp [e3] at h
              | ok idx =>
                cases e4 : visit cap other (top.node - d) s with
                | err x => simp [e3, e4] at h
                | ub => simp [e3, e4] at h
                | ok s' =>
                  simp only [e3, e4, obind_ok] at h ⊢
                  exact ih _ _ _ _ h
            · cases h
    | false =>
      match st, h with
      | [], h => simp [trav] at h
      | [_], h => simp [trav] at h
      | x :: si :: st, h =>
        rw [trav] at h ⊢
        split at h
        · rename_i hd; rw [if_pos hd]; exact ih _ _ _ _ h
        · rename_i hd
          rw [if_neg hd]
          split at h
          · rename_i hs; rw [if_pos hs]; exact h
          · rename_i hs; rw [if_neg hs]; exact ih _ _ _ _ h

theorem visit_length {cap : Nat} {other : List V} {n : Nat} {s q : Packed V} (h : visit cap other n s = .ok q) :
    q.pk.length = s.pk.length := by
  unfold visit at h
  cases e1 : rd s.pk n with
  | err x => simp [e1] at h
  | ub => simp [e1] at h
  | ok v =>
    simp only [e1, obind_ok] at h
    split at h
    · cases h; rfl
    · cases e2 : Outcome.ofOption other[v]? with
      | err x => simp [e2] at h
      | ub => simp [e2] at h
      | ok x => simp only [e2, obind_ok, Outcome.ok.injEq] at h; rw [← h]; simp

theorem trav_length {cap : Nat} {other : List V} : ∀ (f : Nat) (b : Bool) (st : List Item) (s q : Packed V),
    trav cap other f b st s = .ok q → q.pk.length = s.pk.length := by
  intro f
  induction f with
  | zero => intro b st s q h; simp [trav] at h
  | succ f ih =>
    intro b st s q h
    cases b with
    | true =>
      cases st with
      | nil => simp [trav] at h
      | cons top st =>
        rw [trav] at h
        cases e1 : rd s.pk top.pos with
        | err x => simp [e1] at h
        | ub => simp [e1] at h
        | ok c =>
          cases e2 : rd s.pk (top.pos + 1) with
          | err x => simp [e1, e2] at h
          | ub => simp [e1, e2] at h
          | ok d =>
            simp only [e1, e2, obind_ok] at h
            split at h
            · cases e3 : rd s.pk (top.node - d + 1) with
              | err x => simp [e3] at h
              | ub => simp [e3] at h
              | ok idx =>
                cases e4 : visit cap other (top.node - d) s with
                | err x => simp [e3, e4] at h
                | ub => simp [e3, e4] at h
                | ok s' =>
                  simp only [e3, e4, obind_ok] at h
                  rw [ih _ _ _ _ h, visit_length e4]
            · cases h
    | false =>
      match st, h with
      | [], h => simp [trav] at h
      | [_], h => simp [trav] at h
      | x :: si :: st, h =>
        rw [trav] at h
        split at h
        · exact ih _ _ _ _ h
        · split at h
          · cases h; rfl
          · exact ih _ _ _ _ h

theorem copy_mono {cap f : Nat} {p q : Packed V} (h : copy cap f p = .ok q) (g : Nat) : copy cap (f + g) p = .ok q := by
  unfold copy at h ⊢
  cases e1 : rd p.pk 0 with
  | err x => simp [e1] at h
  | ub => simp [e1] at h
  | ok r =>
    cases e2 : rd p.pk (r + 1) with
    | err x => simp [e1, e2] at h
    | ub => simp [e1, e2] at h
    | ok idx =>
      cases e3 : visit cap p.vals r ⟨p.pk, []⟩ with
      | err x => simp [e1, e2, e3] at h
      | ub => simp [e1, e2, e3] at h
      | ok s =>
        simp only [e1, e2, e3, obind_ok] at h ⊢
        split at h
        · rename_i hi; rw [if_pos hi]; exact h
        · rename_i hi
          rw [if_neg hi]
          induction g with
          | zero => exact h
          | succ g ih => exact trav_mono _ _ _ _ _ ih

theorem copy_length {cap f : Nat} {p q : Packed V} (h : copy cap f p = .ok q) : q.pk.length = p.pk.length := by
  unfold copy at h
  cases e1 : rd p.pk 0 with
  | err x => simp [e1] at h
  | ub => simp [e1] at h
  | ok r =>
    cases e2 : rd p.pk (r + 1) with
    | err x => simp [e1, e2] at h
    | ub => simp [e1, e2] at h
    | ok idx =>
      cases e3 : visit cap p.vals r ⟨p.pk, []⟩ with
      | err x => simp [e1, e2, e3] at h
      | ub => simp [e1, e2, e3] at h
      | ok s =>
        simp only [e1, e2, e3, obind_ok] at h
        split at h
        · cases h; exact (visit_length e3 :)
        · rw [trav_length _ _ _ _ _ h, visit_length e3]

end Mdds.Packed
