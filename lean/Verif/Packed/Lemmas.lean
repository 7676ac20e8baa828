import Verif.Packed.Model
import Verif.Trie.IterLemmas

namespace Mdds.Packed
open Mdds.Trie

variable {V : Type}

@[simp] theorem obind_ok {α β : Type} (a : α) (f : α → Outcome β) : (Outcome.ok a).bind f = f a := rfl
@[simp] theorem obind_err {α β : Type} (e : Err) (f : α → Outcome β) : (Outcome.err e : Outcome α).bind f = .err e := rfl
@[simp] theorem obind_ub {α β : Type} (f : α → Outcome β) : (Outcome.ub : Outcome α).bind f = .ub := rfl

theorem rd_of {pk : List Nat} {i x : Nat} (h : pk[i]? = some x) : rd pk i = .ok x := by simp [rd, h]

/-! ### representation -/

/-- Value and size field of a node at `off`. -/
structure EncHead (cap : Nat) (pk : List Nat) (vals : List V) (off : Nat) (v : Option V) (len : Nat) : Prop where
  pos : 1 ≤ off
  vnone : v = none → pk[off]? = some (nullValue cap)
  vsome : ∀ x, v = some x → ∃ i, pk[off]? = some i ∧ i ≠ nullValue cap ∧ vals[i]? = some x
  size : pk[off + 1]? = some (2 * len)

/-- Child slots from slot `i` on. -/
def EncK (cap : Nat) (pk : List Nat) (vals : List V) (off : Nat) : Nat → Kids V → Prop
  | _, .nil => True
  | i, .cons c v k r => (∃ d, pk[off + 2 + 2 * i]? = some c ∧ pk[off + 2 + 2 * i + 1]? = some d ∧ d ≤ off ∧
      EncHead cap pk vals (off - d) v k.length ∧ EncK cap pk vals (off - d) 0 k) ∧ EncK cap pk vals off (i + 1) r

/-- The node at `off` represents `n`. -/
structure Enc (cap : Nat) (pk : List Nat) (vals : List V) (off : Nat) (n : Node V) : Prop where
  head : EncHead cap pk vals off n.val n.kids.length
  kids : EncK cap pk vals off 0 n.kids

theorem EncK.get {cap : Nat} {pk : List Nat} {vals : List V} {off : Nat} {c : Nat} {n : Node V} :
    {ks : Kids V} → {j i : Nat} → EncK cap pk vals off j ks → ks.get? i = some (c, n) →
    ∃ d, pk[off + 2 + 2 * (j + i)]? = some c ∧ pk[off + 2 + 2 * (j + i) + 1]? = some d ∧ d ≤ off ∧
      Enc cap pk vals (off - d) n
  | .nil, _, _, _, h => by simp [Kids.get?] at h
  | .cons d v k r, j, 0, he, h => by
    simp only [Kids.get?, Option.some.injEq, Prod.mk.injEq] at h
    obtain ⟨rfl, rfl⟩ := h
    obtain ⟨x, h1, h2, h3, h4, h5⟩ := he.1
    exact ⟨x, h1, h2, h3, h4, h5⟩
  | .cons d v k r, j, i + 1, he, h => by
    have := EncK.get (ks := r) (j := j + 1) (i := i) he.2 (by simpa [Kids.get?] using h)
    rw [show j + (i + 1) = j + 1 + i by omega]
    exact this

theorem EncHead.mono {cap : Nat} {pk pk' : List Nat} {vals vals' : List V} {off : Nat} {v : Option V} {len : Nat}
    (hp : ∀ i x, 1 ≤ i → pk[i]? = some x → pk'[i]? = some x) (hv : ∀ (i : Nat) (x : V), vals[i]? = some x → vals'[i]? = some x)
    (h : EncHead cap pk vals off v len) : EncHead cap pk' vals' off v len where
  pos := h.pos
  vnone e := hp _ _ h.pos (h.vnone e)
  vsome x e := by
    obtain ⟨i, h1, h2, h3⟩ := h.vsome x e
    exact ⟨i, hp _ _ h.pos h1, h2, hv _ _ h3⟩
  size := hp _ _ (by have := h.pos; omega) h.size

theorem EncK.mono {cap : Nat} {pk pk' : List Nat} {vals vals' : List V}
    (hp : ∀ i x, 1 ≤ i → pk[i]? = some x → pk'[i]? = some x) (hv : ∀ (i : Nat) (x : V), vals[i]? = some x → vals'[i]? = some x) :
    (ks : Kids V) → (off i : Nat) → EncK cap pk vals off i ks → EncK cap pk' vals' off i ks
  | .nil, _, _, _ => trivial
  | .cons c v k r, off, i, h => by
    obtain ⟨⟨d, h1, h2, h3, h4, h5⟩, h6⟩ := h
    exact ⟨⟨d, hp _ _ (by omega) h1, hp _ _ (by omega) h2, h3, h4.mono hp hv, EncK.mono hp hv k _ _ h5⟩,
      EncK.mono hp hv r _ _ h6⟩

theorem Enc.mono {cap : Nat} {pk pk' : List Nat} {vals vals' : List V}
    (hp : ∀ i x, 1 ≤ i → pk[i]? = some x → pk'[i]? = some x) (hv : ∀ (i : Nat) (x : V), vals[i]? = some x → vals'[i]? = some x)
    {off : Nat} {n : Node V} (h : Enc cap pk vals off n) : Enc cap pk' vals' off n :=
  ⟨h.head.mono hp hv, h.kids.mono hp hv⟩

/-- Children written at the given offsets. -/
def EncOffs (cap : Nat) (pk : List Nat) (vals : List V) : List (Nat × Nat) → Kids V → Prop
  | [], .nil => True
  | (o, c') :: l, .cons c v k r => c' = c ∧ o < pk.length ∧ EncHead cap pk vals o v k.length ∧
      EncK cap pk vals o 0 k ∧ EncOffs cap pk vals l r
  | _, _ => False

theorem EncOffs.mono {cap : Nat} {pk pk' : List Nat} {vals vals' : List V}
    (hp : ∀ i x, 1 ≤ i → pk[i]? = some x → pk'[i]? = some x) (hv : ∀ (i : Nat) (x : V), vals[i]? = some x → vals'[i]? = some x)
    (hl : pk.length ≤ pk'.length) :
    (l : List (Nat × Nat)) → (ks : Kids V) → EncOffs cap pk vals l ks → EncOffs cap pk' vals' l ks
  | [], .nil, _ => trivial
  | [], .cons _ _ _ _, h => h.elim
  | _ :: _, .nil, h => h.elim
  | (o, c') :: l, .cons c v k r, h =>
    ⟨h.1, by have := h.2.1; omega, h.2.2.1.mono hp hv, h.2.2.2.1.mono hp hv, EncOffs.mono hp hv hl l r h.2.2.2.2⟩

theorem EncOffs.length {cap : Nat} {pk : List Nat} {vals : List V} : (l : List (Nat × Nat)) → (ks : Kids V) →
    EncOffs cap pk vals l ks → l.length = ks.length
  | [], .nil, _ => rfl
  | [], .cons _ _ _ _, h => h.elim
  | _ :: _, .nil, h => h.elim
  | (o, c') :: l, .cons c v k r, h => by
    simp only [List.length_cons, Kids.length]
    rw [EncOffs.length l r h.2.2.2.2]

/-- All key units fit into a slot. -/
def UnitsLt (cap : Nat) : Kids V → Prop
  | .nil => True
  | .cons c _ k r => c < cap ∧ UnitsLt cap k ∧ UnitsLt cap r

theorem flatMap_pair_length (f g : Nat × Nat → Nat) (l : List (Nat × Nat)) :
    (l.flatMap fun x => [f x, g x]).length = 2 * l.length := by
  induction l with
  | nil => rfl
  | cons a l ih => simp only [List.flatMap_cons, List.length_append, List.length_cons, List.length_nil, ih]; omega

/-- Slots written after `pre` encode the children. -/
theorem encK_slots {cap : Nat} {vals : List V} (off : Nat) (hoff : off < cap) (pk : List Nat)
    (hpre : off ≤ pk.length) : (l : List (Nat × Nat)) → (ks : Kids V) → (i : Nat) →
    UnitsLt cap ks → (∀ x ∈ l, x.1 < off) →
    (pk.drop (off + 2 + 2 * i) = l.flatMap fun x => [x.2 % cap, (off - x.1) % cap]) →
    EncOffs cap pk vals l ks → EncK cap pk vals off i ks
  | [], .nil, _, _, _, _, _ => trivial
  | [], .cons _ _ _ _, _, _, _, _, h => h.elim
  | _ :: _, .nil, _, _, _, _, h => h.elim
  | (o, c') :: l, .cons c v k r, i, hu, hlt, hs, h => by
    have ho : o < off := hlt (o, c') (by simp)
    obtain ⟨h1, h2, h3, h4, h5⟩ := h
    subst h1
    simp only [List.flatMap_cons] at hs
    have e1 : pk[off + 2 + 2 * i]? = some c' := by
      have := congrArg (fun l => l[0]?) hs
      simpa [List.getElem?_drop, Nat.mod_eq_of_lt hu.1] using this
    have e2 : pk[off + 2 + 2 * i + 1]? = some (off - o) := by
      have := congrArg (fun l => l[1]?) hs
      simp only [List.getElem?_drop] at this
      rw [this]
      simp [Nat.mod_eq_of_lt (show off - o < cap by omega)]
    have e3 : pk.drop (off + 2 + 2 * (i + 1)) = l.flatMap fun x => [x.2 % cap, (off - x.1) % cap] := by
      have := congrArg (fun l => l.drop 2) hs
      simp only [List.drop_drop] at this
      rw [show off + 2 + 2 * (i + 1) = off + 2 + 2 * i + 2 by omega, this]
      simp
    refine ⟨⟨off - o, e1, e2, by omega, ?_, ?_⟩, ?_⟩
    · rw [show off - (off - o) = o by omega]; exact h3
    · rw [show off - (off - o) = o by omega]; exact h4
    · exact encK_slots off hoff pk hpre l r (i + 1) hu.2.2 (fun x hx => hlt x (by simp [hx])) e3 h5

theorem encOffs_lt {cap : Nat} {pk : List Nat} {vals : List V} : (l : List (Nat × Nat)) → (ks : Kids V) →
    EncOffs cap pk vals l ks → ∀ x ∈ l, x.1 < pk.length
  | [], .nil, _, _, h => by simp at h
  | [], .cons _ _ _ _, h, _, _ => h.elim
  | _ :: _, .nil, h, _, _ => h.elim
  | (o, c') :: l, .cons c v k r, h, x, hx => by
    rcases List.mem_cons.1 hx with rfl | hx
    · exact h.2.1
    · exact encOffs_lt l r h.2.2.2.2 x hx

theorem getElem?_append_mono {α : Type} (a b : List α) (i : Nat) (x : α) (h : a[i]? = some x) : (a ++ b)[i]? = some x := by
  rw [List.getElem?_append_left]
  · exact h
  · exact (List.getElem?_eq_some_iff.1 h).1

/-- What `finishNode` appends. -/
theorem finishNode_ok {cap : Nat} {v : Option V} {offs : List (Nat × Nat)} {s s' : Packed V} {off : Nat}
    (h : finishNode cap v offs s = .ok (s', off)) :
    off = s.pk.length ∧ s'.vals = s.vals ++ v.toList ∧ (v.isSome → s.vals.length < maxValuePos cap) ∧
      s'.pk = s.pk ++ (match v with | none => nullValue cap | some _ => s.vals.length % cap) ::
        (2 * offs.length % cap) :: offs.flatMap fun x => [x.2 % cap, (s.pk.length - x.1) % cap] := by
  unfold finishNode at h
  cases v with
  | none => simp only [Outcome.ok.injEq, Prod.mk.injEq] at h; obtain ⟨rfl, rfl⟩ := h; simp
  | some x =>
    simp only at h
    split at h
    · cases h
    · simp only [Outcome.ok.injEq, Prod.mk.injEq] at h; obtain ⟨rfl, rfl⟩ := h; simp; omega

theorem finishNode_enc {cap : Nat} {v : Option V} {ks : Kids V} {offs : List (Nat × Nat)} {s s' : Packed V} {off : Nat}
    (hpos : 1 ≤ s.pk.length) (hu : UnitsLt cap ks) (he : EncOffs cap s.pk s.vals offs ks)
    (h : finishNode cap v offs s = .ok (s', off)) (hc : s'.pk.length ≤ cap) :
    off < s'.pk.length ∧ Enc cap s'.pk s'.vals off ⟨v, ks⟩ := by
  obtain ⟨rfl, hv, hval, hpk⟩ := finishNode_ok h
  have hlen : s'.pk.length = s.pk.length + 2 + 2 * offs.length := by
    rw [hpk]; simp only [List.length_append, List.length_cons, flatMap_pair_length]; omega
  have mp : ∀ i x, 1 ≤ i → s.pk[i]? = some x → s'.pk[i]? = some x := by
    intro i x _ hx; rw [hpk]; exact getElem?_append_mono _ _ _ _ hx
  have mv : ∀ (i : Nat) (x : V), s.vals[i]? = some x → s'.vals[i]? = some x := by
    intro i x hx; rw [hv]; exact getElem?_append_mono _ _ _ _ hx
  have hoff : s.pk.length < cap := by omega
  refine ⟨by omega, ⟨hpos, ?_, ?_, ?_⟩, ?_⟩
  · intro hn
    simp only at hn
    subst hn
    rw [hpk]; simp
  · intro x hx
    simp only at hx
    subst hx
    have hm := hval rfl
    unfold maxValuePos nullValue at hm
    refine ⟨s.vals.length, ?_, by unfold nullValue; omega, by rw [hv]; simp⟩
    rw [hpk]; simp [Nat.mod_eq_of_lt (show s.vals.length < cap by omega)]
  · rw [hpk]
    simp only [List.getElem?_append_right (Nat.le_add_right _ _), Nat.add_sub_cancel_left,
      List.getElem?_cons_succ, List.getElem?_cons_zero, EncOffs.length _ _ he]
    rw [Nat.mod_eq_of_lt]
    have := EncOffs.length _ _ he
    omega
  · apply encK_slots s.pk.length hoff s'.pk (by omega) offs ks 0 hu (encOffs_lt _ _ he)
    · rw [hpk, show s.pk.length + 2 + 2 * 0 = s.pk.length + 2 by omega, ← List.drop_drop, List.drop_left]
      rfl
    · exact he.mono mp mv (by omega)

/-- Compaction of children: appends, and what is written represents them. -/
theorem compactKids_spec {cap : Nat} : (ks : Kids V) → (s s' : Packed V) → (offs : List (Nat × Nat)) →
    compactKids cap ks s = .ok (s', offs) →
    (∃ x, s'.pk = s.pk ++ x) ∧ (∃ y, s'.vals = s.vals ++ y ∧ y.length = ks.count) ∧
      (1 ≤ s.pk.length → UnitsLt cap ks → s'.pk.length ≤ cap → EncOffs cap s'.pk s'.vals offs ks)
  | .nil, s, s', offs, h => by
    simp only [compactKids, Outcome.ok.injEq, Prod.mk.injEq] at h
    obtain ⟨rfl, rfl⟩ := h
    exact ⟨⟨[], by simp⟩, ⟨[], by simp [Kids.count]⟩, fun _ _ _ => trivial⟩
  | .cons c v k r, s, s', offs, h => by
    simp only [compactKids] at h
    cases h1 : compactKids cap k s with
    | err e => simp [h1] at h
    | ub => simp [h1] at h
    | ok p1 =>
      obtain ⟨s1, offs1⟩ := p1
      simp only [h1] at h
      cases h2 : finishNode cap v offs1 s1 with
      | err e => simp [h2] at h
      | ub => simp [h2] at h
      | ok p2 =>
        obtain ⟨s2, off⟩ := p2
        simp only [h2] at h
        cases h3 : compactKids cap r s2 with
        | err e => simp [h3] at h
        | ub => simp [h3] at h
        | ok p3 =>
          obtain ⟨s3, l⟩ := p3
          simp only [h3, Outcome.ok.injEq, Prod.mk.injEq] at h
          obtain ⟨rfl, rfl⟩ := h
          obtain ⟨⟨x1, e1⟩, ⟨y1, f1, g1⟩, q1⟩ := compactKids_spec k s s1 offs1 h1
          obtain ⟨⟨x3, e3⟩, ⟨y3, f3, g3⟩, q3⟩ := compactKids_spec r s2 s3 l h3
          obtain ⟨-, hv2, -, hp2⟩ := finishNode_ok h2
          refine ⟨⟨_, by rw [e3, hp2, e1]; simp only [List.append_assoc]; rfl⟩,
            ⟨y1 ++ v.toList ++ y3, by rw [f3, hv2, f1]; simp, ?_⟩, ?_⟩
          · simp only [List.length_append, g1, g3, Kids.count]
            cases v <;> simp <;> omega
          · intro hpos hu hc
            have l1 : s.pk.length ≤ s1.pk.length := by rw [e1]; simp
            have l2 : s1.pk.length ≤ s2.pk.length := by rw [hp2]; simp
            have l3 : s2.pk.length ≤ s3.pk.length := by rw [e3]; simp
            have he1 := q1 hpos hu.2.1 (by omega)
            obtain ⟨hlt, henc⟩ := finishNode_enc (by omega) hu.2.1 he1 h2 (by omega)
            have he3 := q3 (by omega) hu.2.2 hc
            have mp : ∀ i x, 1 ≤ i → s2.pk[i]? = some x → s3.pk[i]? = some x := by
              intro i x _ hx; rw [e3]; exact getElem?_append_mono _ _ _ _ hx
            have mv : ∀ (i : Nat) (x : V), s2.vals[i]? = some x → s3.vals[i]? = some x := by
              intro i x hx; rw [f3]; exact getElem?_append_mono _ _ _ _ hx
            have := henc.mono mp mv
            exact ⟨rfl, by omega, this.head, this.kids, he3⟩

/-- Number of cells that packing takes for the children. -/
def cells : Kids V → Nat
  | .nil => 0
  | .cons _ _ k r => 2 + 2 * k.length + cells k + cells r

theorem compactKids_length {cap : Nat} : (ks : Kids V) → (s s' : Packed V) → (offs : List (Nat × Nat)) →
    compactKids cap ks s = .ok (s', offs) → s'.pk.length = s.pk.length + cells ks ∧ offs.length = ks.length
  | .nil, s, s', offs, h => by
    simp only [compactKids, Outcome.ok.injEq, Prod.mk.injEq] at h
    obtain ⟨rfl, rfl⟩ := h
    exact ⟨rfl, rfl⟩
  | .cons c v k r, s, s', offs, h => by
    simp only [compactKids] at h
    cases h1 : compactKids cap k s with
    | err e => simp [h1] at h
    | ub => simp [h1] at h
    | ok p1 =>
      obtain ⟨s1, offs1⟩ := p1
      simp only [h1] at h
      cases h2 : finishNode cap v offs1 s1 with
      | err e => simp [h2] at h
      | ub => simp [h2] at h
      | ok p2 =>
        obtain ⟨s2, off⟩ := p2
        simp only [h2] at h
        cases h3 : compactKids cap r s2 with
        | err e => simp [h3] at h
        | ub => simp [h3] at h
        | ok p3 =>
          obtain ⟨s3, l⟩ := p3
          simp only [h3, Outcome.ok.injEq, Prod.mk.injEq] at h
          obtain ⟨rfl, rfl⟩ := h
          obtain ⟨a1, b1⟩ := compactKids_length k s s1 offs1 h1
          obtain ⟨a3, b3⟩ := compactKids_length r s2 s3 l h3
          obtain ⟨-, -, -, hp2⟩ := finishNode_ok h2
          have : s2.pk.length = s1.pk.length + 2 + 2 * offs1.length := by
            rw [hp2]; simp only [List.length_append, List.length_cons, flatMap_pair_length]; omega
          simp only [cells, List.length_cons, Kids.length]
          omega

/-- Compaction succeeds iff the value store does not grow beyond its limit. -/
theorem compactKids_ok {cap : Nat} : (ks : Kids V) → (s : Packed V) →
    ((∃ s' offs, compactKids cap ks s = .ok (s', offs)) ∧ (ks.count = 0 ∨ s.vals.length + ks.count ≤ maxValuePos cap)) ∨
      (compactKids cap ks s = .err .size ∧ ks.count ≠ 0 ∧ maxValuePos cap < s.vals.length + ks.count)
  | .nil, s => Or.inl ⟨⟨s, [], rfl⟩, Or.inl rfl⟩
  | .cons c v k r, s => by
    simp only [compactKids]
    rcases compactKids_ok (cap := cap) k s with ⟨⟨s1, offs1, h1⟩, c1⟩ | ⟨h1, c1, c1'⟩
    · obtain ⟨-, ⟨y1, f1, g1⟩, -⟩ := compactKids_spec k s s1 offs1 h1
      have lv1 : s1.vals.length = s.vals.length + k.count := by rw [f1]; simp [g1]
      simp only [h1]
      have hfin : (∃ s2 off, finishNode cap v offs1 s1 = .ok (s2, off) ∧ s2.vals.length = s1.vals.length + (if v.isSome then 1 else 0) ∧
          (v.isSome → s1.vals.length < maxValuePos cap)) ∨
          (finishNode cap v offs1 s1 = .err .size ∧ v.isSome ∧ maxValuePos cap ≤ s1.vals.length) := by
        unfold finishNode
        cases v with
        | none => left; exact ⟨_, _, rfl, by simp, by simp⟩
        | some x =>
          simp only
          by_cases h : maxValuePos cap ≤ s1.vals.length
          · right; exact ⟨by rw [if_pos h], rfl, h⟩
          · left; exact ⟨_, _, by rw [if_neg h], by simp, fun _ => by omega⟩
      rcases hfin with ⟨s2, off, h2, l2, hm⟩ | ⟨h2, hs, hm⟩
      · simp only [h2]
        rcases compactKids_ok (cap := cap) r s2 with ⟨⟨s3, l, h3⟩, c3⟩ | ⟨h3, c3, c3'⟩
        · left
          refine ⟨⟨s3, (off, c) :: l, by simp only [h3]⟩, ?_⟩
          simp only [Kids.count]
          cases v with
          | none => simp only [Option.isSome_none] at *; simp only [Bool.false_eq_true, if_false] at *; omega
          | some x =>
            simp only [Option.isSome_some, if_true] at *
            have := hm trivial
            omega
        · right
          refine ⟨by simp only [h3], ?_, ?_⟩
          · simp only [Kids.count]; omega
          · simp only [Kids.count]; omega
      · right
        refine ⟨by simp only [h2], ?_, ?_⟩
        · simp only [Kids.count, hs, if_true]; omega
        · simp only [Kids.count, hs, if_true]; omega
    · right
      refine ⟨by simp only [h1], by simp only [Kids.count]; omega, by simp only [Kids.count]; omega⟩

/-! ### lookup -/

theorem Kids.get?_sorted {a b : Nat} {x y : Nat × Node V} : {ks : Kids V} → {i j : Nat} → ks.WF → i < j →
    ks.get? i = some x → ks.get? j = some y → x.1 < y.1
  | .nil, _, _, _, _, h, _ => by simp [Kids.get?] at h
  | .cons c v k r, i, 0, _, h, _, _ => by omega
  | .cons c v k r, 0, j + 1, hw, _, h1, h2 => by
    simp only [Kids.get?] at h1 h2
    cases h1
    exact Kids.allGt_get hw.2.2.1 h2
  | .cons c v k r, i + 1, j + 1, hw, hij, h1, h2 => by
    simp only [Kids.get?] at h1 h2
    exact Kids.get?_sorted (a := a) (b := b) (ks := r) hw.2.1 (by omega) h1 h2

/-- The binary search finds the slot of a unit. -/
theorem findChild_spec {cap : Nat} {pk : List Nat} {vals : List V} {off : Nat} {ks : Kids V} (he : EncK cap pk vals off 0 ks)
    (hw : ks.WF) (c : Nat) : (fuel low high : Nat) → low ≤ high → high < ks.length → high - low < fuel →
    (∀ j n, ks.get? j = some (c, n) → low ≤ j ∧ j ≤ high) →
    findChild pk (off + 2) c fuel low high = .ok ((ks.idxOf? c).map fun j => off + 2 + 2 * j)
  | 0, low, high, _, _, hf, _ => by omega
  | fuel + 1, low, high, hlh, hh, hf, hin => by
    unfold findChild
    have hi : (low + high) / 2 < ks.length := by omega
    obtain ⟨⟨key, m⟩, hg⟩ := Kids.get?_some_of_lt hi
    obtain ⟨d, h1, -, -, -⟩ := he.get hg
    rw [Nat.zero_add] at h1
    simp only [rd_of h1, obind_ok]
    have hidx : ∀ (a b : Nat) (n1 n2 : Node V), ks.get? a = some (c, n1) → ks.get? b = some (c, n2) → a = b := by
      intro a b n1 n2 ha hb
      rcases Nat.lt_trichotomy a b with h | h | h
      · have := Kids.get?_sorted (a := 0) (b := 0) hw h ha hb; simp at this
      · exact h
      · have := Kids.get?_sorted (a := 0) (b := 0) hw h hb ha; simp at this
    by_cases hc : c = key
    · subst hc
      rw [if_pos rfl]
      rcases Kids.idxOf?_spec (c := c) ks with ⟨h2, h3⟩ | ⟨i, n, h2, h3, -⟩
      · rw [Kids.find?_of_get hw hg] at h3; cases h3
      · rw [h2, hidx _ _ _ _ hg h3]; rfl
    rw [if_neg hc]
    have hne : ∀ n, ks.get? ((low + high) / 2) ≠ some (c, n) := by
      intro n hn; rw [hg] at hn; cases hn; exact hc rfl
    by_cases h2 : low = high
    · rw [if_pos h2]
      rcases Kids.idxOf?_spec (c := c) ks with ⟨h3, -⟩ | ⟨i, n, h3, h4, -⟩
      · rw [h3]; rfl
      · obtain ⟨g1, g2⟩ := hin i n h4
        exfalso
        apply hne n
        rw [show (low + high) / 2 = i by omega, h4]
    rw [if_neg h2]
    by_cases h3 : high - low = 1
    · rw [if_pos h3]
      have hil : (low + high) / 2 = low := by omega
      rw [if_pos hil]
      apply findChild_spec he hw c fuel high high (by omega) hh (by omega)
      intro j n hj
      obtain ⟨g1, g2⟩ := hin j n hj
      have : j ≠ low := by rintro rfl; rw [← hil] at hj; exact hne n hj
      omega
    rw [if_neg h3]
    by_cases h4 : c < key
    · rw [if_pos h4]
      apply findChild_spec he hw c fuel low _ (by omega) (by omega) (by omega)
      intro j n hj
      obtain ⟨g1, g2⟩ := hin j n hj
      refine ⟨g1, ?_⟩
      by_contra hlt
      have := Kids.get?_sorted (a := 0) (b := 0) hw (by omega) hg hj
      simp only at this
      omega
    · rw [if_neg h4]
      apply findChild_spec he hw c fuel _ high (by omega) hh (by omega)
      intro j n hj
      obtain ⟨g1, g2⟩ := hin j n hj
      refine ⟨?_, g2⟩
      by_contra hlt
      have := Kids.get?_sorted (a := 0) (b := 0) hw (by omega) hj hg
      simp only at this
      omega

/-- Stack items that stand for the same node and child position. -/
structure RelItem (cap : Nat) (pk : List Nat) (vals : List V) (x : Node V × Nat) (it : Item) : Prop where
  enc : Enc cap pk vals it.node x.1
  pos : it.pos = it.node + 2 + 2 * x.2
  end_ : it.end_ = it.node + 2 + 2 * x.1.kids.length

/-- Items below the top of the stack point to an existing child. -/
def RelB (cap : Nat) (pk : List Nat) (vals : List V) : Stack V → List Item → Prop
  | [], [] => True
  | x :: st, it :: ist => RelItem cap pk vals x it ∧ x.2 < x.1.kids.length ∧ RelB cap pk vals st ist
  | _, _ => False

/-- `findPath` follows `findStack`. -/
theorem findPath_spec {cap : Nat} {pk : List Nat} {vals : List V} (k : Key) (n : Node V) (p : Nat) (st : Stack V) (ist : List Item)
    (he : Enc cap pk vals p n) (hw : n.kids.WF) (hb : RelB cap pk vals st ist) :
    (findNode k n = none ∧ findPath pk k p ist = .ok none) ∨
    ∃ m st' q ist', findNode k n = some m ∧ findStack k n st = (m, 0) :: st' ∧
      findPath pk k p ist = .ok (some (⟨q, q + 2, q + 2 + 2 * m.kids.length⟩ :: ist')) ∧
      Enc cap pk vals q m ∧ RelB cap pk vals st' ist' := by
  induction k generalizing n p st ist with
  | nil =>
    right
    refine ⟨n, st, p, ist, rfl, rfl, ?_, he, hb⟩
    simp [findPath, rd_of he.head.size]
  | cons c k ih =>
    simp only [findPath, rd_of he.head.size, obind_ok, show 2 * n.kids.length / 2 = n.kids.length by omega]
    by_cases h0 : n.kids.length = 0
    · left
      rw [if_pos h0]
      have : n.kids = .nil := by
        cases hk : n.kids with
        | nil => rfl
        | cons a b d e => rw [hk] at h0; simp [Kids.length] at h0
      refine ⟨?_, rfl⟩
      simp [findNode, this, Kids.find?]
    rw [if_neg h0, findChild_spec he.kids hw c n.kids.length 0 (n.kids.length - 1) (by omega) (by omega) (by omega)
      (fun j m hj => ⟨by omega, by have := Kids.get?_lt hj; omega⟩)]
    simp only [obind_ok]
    rcases Kids.idxOf?_spec (c := c) n.kids with ⟨h1, h2⟩ | ⟨i, ch, h1, h2, h3⟩
    · left
      simp [h1, h2, findNode]
    · obtain ⟨d, g1, g2, g3, g4⟩ := he.kids.get h2
      rw [Nat.zero_add] at g1 g2
      simp only [h1, Option.map_some, rd_of g2, obind_ok, if_pos g3]
      have hrel : RelB cap pk vals ((n, i) :: st) (⟨p, p + 2 + 2 * i, p + 2 + 2 * n.kids.length⟩ :: ist) :=
        ⟨⟨he, rfl, rfl⟩, Kids.get?_lt h2, hb⟩
      rcases ih ch (p - d) _ _ g4 (Kids.get?_wf hw h2).1 hrel with ⟨e1, e2⟩ | ⟨m, st', q, ist', e1, e2, e3, e4, e5⟩
      · left
        exact ⟨by simp only [findNode, h3]; exact e1, e2⟩
      · right
        refine ⟨m, st', q, ist', by simp only [findNode, h3]; exact e1, ?_, e3, e4, e5⟩
        simp only [findStack, h1, h2]
        exact e2

theorem rdKeys_spec {cap : Nat} {pk : List Nat} {vals : List V} : (st : Stack V) → (ist : List Item) → RelB cap pk vals st ist →
    rdKeys pk ist = .ok (units st)
  | [], [], _ => rfl
  | [], _ :: _, h => h.elim
  | _ :: _, [], h => h.elim
  | x :: st, it :: ist, h => by
    obtain ⟨h1, h2, h3⟩ := h
    obtain ⟨⟨c, n⟩, hg⟩ := Kids.get?_some_of_lt h2
    obtain ⟨d, g1, -, -, -⟩ := h1.enc.kids.get hg
    rw [Nat.zero_add, ← h1.pos] at g1
    simp [rdKeys, rdKeys_spec st ist h3, rd_of g1, units_cons, hg]

/-! ### iterators -/

/-- Packed and tree iterator stand for the same position. -/
structure Rel (cap : Nat) (p : Packed V) (it : Iter V) (pit : PIter) : Prop where
  buf : pit.buf = it.buf
  kind : pit.kind = it.kind
  ex : ∃ x st y ist, it.stack = x :: st ∧ pit.stack = y :: ist ∧ RelItem cap p.pk p.vals x y ∧ RelB cap p.pk p.vals st ist ∧
    (it.kind = .normal → x.1.val = p.vals[pit.cur]?)

theorem EncHead.rd_val {cap : Nat} {pk : List Nat} {vals : List V} {off : Nat} {v : Option V} {len : Nat}
    (h : EncHead cap pk vals off v len) :
    (v = .none ∧ rd pk off = .ok (nullValue cap)) ∨
      ∃ i, v.isSome ∧ rd pk off = .ok i ∧ i ≠ nullValue cap ∧ v = vals[i]? := by
  cases v with
  | none => left; exact ⟨rfl, rd_of (h.vnone rfl)⟩
  | some x =>
    right
    obtain ⟨i, h1, h2, h3⟩ := h.vsome x rfl
    exact ⟨i, rfl, rd_of h1, h2, h3.symm⟩

/-- Pushing the child at a valid slot. -/
theorem pushChild_spec {cap : Nat} {pk : List Nat} {vals : List V} {x : Node V × Nat} {y : Item} {c : Nat} {n : Node V}
    (ist : List Item) (buf : Key) (cp i : Nat) (hr : Enc cap pk vals y.node x.1) (hg : x.1.kids.get? i = some (c, n))
    (hcp : cp = y.node + 2 + 2 * i) :
    ∃ q, pushChild pk (y :: ist) buf cp = .ok (⟨q, q + 2, q + 2 + 2 * n.kids.length⟩ :: y :: ist, buf ++ [c]) ∧
      Enc cap pk vals q n := by
  obtain ⟨d, g1, g2, g3, g4⟩ := hr.kids.get hg
  rw [Nat.zero_add] at g1 g2
  subst hcp
  exact ⟨y.node - d, by simp [pushChild, rd_of g1, rd_of g2, g3, rd_of g4.head.size], g4⟩

theorem pLeftmost_spec {cap : Nat} {p : Packed V} : (v : Option V) → (k : Kids V) → (st : Stack V) → (ist : List Item) →
    (buf : Key) → (it : Iter V) → (y : Item) → leftmost v k ((⟨v, k⟩, 0) :: st) buf = .ok it →
    RelItem cap p.pk p.vals (⟨v, k⟩, 0) y → RelB cap p.pk p.vals st ist →
    ∃ pit, (∀ fuel, k.nodes < fuel → pLeftmost cap p.pk fuel (y :: ist) buf = .ok pit) ∧ Rel cap p it pit
  | some w, k, st, ist, buf, it, y, h, hr, hb => by
    simp only [leftmost, Outcome.ok.injEq] at h
    subst h
    obtain ⟨i, h1, h2, h3⟩ := hr.enc.head.vsome w rfl
    refine ⟨⟨y :: ist, buf, i, .normal⟩, ?_, rfl, rfl, _, _, _, _, rfl, rfl, hr, hb, fun _ => h3.symm⟩
    intro fuel hf
    obtain ⟨f, rfl⟩ : ∃ f, fuel = f + 1 := ⟨fuel - 1, by omega⟩
    simp [pLeftmost, rd_of h1, h2]
  | none, .nil, st, ist, buf, it, y, h, _, _ => by simp [leftmost] at h
  | none, .cons c v k r, st, ist, buf, it, y, h, hr, hb => by
    rw [show leftmost none (Kids.cons c v k r) ((⟨none, .cons c v k r⟩, 0) :: st) buf =
      leftmost v k ((⟨v, k⟩, 0) :: (⟨none, .cons c v k r⟩, 0) :: st) (buf ++ [c]) from rfl] at h
    obtain ⟨q, h1, h2⟩ := pushChild_spec (x := (⟨none, .cons c v k r⟩, 0)) (c := c) (n := ⟨v, k⟩) ist buf y.pos 0 hr.enc rfl hr.pos
    obtain ⟨pit, h3, h4⟩ := pLeftmost_spec v k _ (y :: ist) (buf ++ [c]) it ⟨q, q + 2, q + 2 + 2 * k.length⟩ h
      ⟨h2, rfl, rfl⟩ ⟨hr, by simp [Kids.length], hb⟩
    refine ⟨pit, ?_, h4⟩
    intro fuel hf
    obtain ⟨f, rfl⟩ : ∃ f, fuel = f + 1 := ⟨fuel - 1, by omega⟩
    have h0 := hr.enc.head.vnone rfl
    simp only [Kids.nodes] at hf
    simp only [pLeftmost, rd_of h0, obind_ok, if_true, h1]
    exact h3 f (by omega)

/-- Going up. -/
theorem pGoUp_spec {cap : Nat} {p : Packed V} (cur : Nat) : (st : Stack V) → (ist : List Item) → (x : Node V × Nat) → (y : Item) →
    (buf : Key) → RelItem cap p.pk p.vals x y → RelB cap p.pk p.vals st ist →
    ∃ pit, pGoUp p.pk cur y ist buf = .ok pit ∧ pit.buf = (goUp x st buf).buf ∧ pit.kind = (goUp x st buf).kind ∧
      ∃ x' st' y' ist', (goUp x st buf).stack = x' :: st' ∧ pit.stack = y' :: ist' ∧ RelItem cap p.pk p.vals x' y' ∧
        RelB cap p.pk p.vals st' ist' ∧ ((goUp x st buf).kind = .normal → x'.2 = 0) ∧
        ((goUp x st buf).kind = .normal ∨ (goUp x st buf).kind = .end_)
  | [], [], x, y, buf, hr, hb => ⟨_, rfl, rfl, rfl, _, _, _, _, rfl, rfl, hr, hb, by simp [goUp], Or.inr rfl⟩
  | [], _ :: _, _, _, _, _, h => h.elim
  | _ :: _, [], _, _, _, _, h => h.elim
  | (n, i) :: st, si :: ist, x, y, buf, hr, hb => by
    obtain ⟨h1, h2, h3⟩ := hb
    simp only at h2
    have hpos := h1.pos
    have hend := h1.end_
    simp only at hpos hend
    cases hg : n.kids.get? (i + 1) with
    | some ch =>
      have hlt := Kids.get?_lt hg
      obtain ⟨q, e1, e2⟩ := pushChild_spec (x := (n, i + 1)) (y := { si with pos := si.pos + 2 }) (c := ch.1) (n := ch.2) ist buf.dropLast
        (si.pos + 2) (i + 1) h1.enc hg (by simp only; omega)
      have hgo : goUp x ((n, i) :: st) buf = ⟨(ch.2, 0) :: (n, i + 1) :: st, buf.dropLast ++ [ch.1], .normal⟩ := by
        simp only [goUp, hg]
      rw [hgo]
      have hb2 : RelB cap p.pk p.vals ((n, i + 1) :: st) ({ si with pos := si.pos + 2 } :: ist) :=
        ⟨⟨h1.enc, by simp only; omega, hend⟩, hlt, h3⟩
      have hr2 : RelItem cap p.pk p.vals (ch.2, 0) ⟨q, q + 2, q + 2 + 2 * ch.2.kids.length⟩ := ⟨e2, rfl, rfl⟩
      refine ⟨⟨_, _, cur, .normal⟩, ?_, rfl, rfl, _, _, _, _, rfl, rfl, hr2, hb2, fun _ => rfl, Or.inl rfl⟩
      simp only [pGoUp]
      rw [if_pos (by omega), e1]
      rfl
    | none =>
      have hge := Kids.get?_none hg
      have hgo : goUp x ((n, i) :: st) buf = goUp (n, i + 1) st buf.dropLast := by simp only [goUp, hg]
      rw [hgo]
      have := pGoUp_spec cur st ist (n, i + 1) { si with pos := si.pos + 2 } buf.dropLast ⟨h1.enc, by simp only; omega, hend⟩ h3
      obtain ⟨pit, e1, e2⟩ := this
      refine ⟨pit, ?_, e2⟩
      simp only [pGoUp]
      rw [if_neg (by omega)]
      exact e1

/-- `++` on both sides. -/
theorem pInc_spec {cap : Nat} {p : Packed V} (fuel : Nat) (it : Iter V) (pit : PIter) (x : Node V × Nat) (st : Stack V) (y : Item)
    (ist : List Item) (it' : Iter V) (hs : it.stack = x :: st) (hs' : pit.stack = y :: ist) (hbuf : pit.buf = it.buf)
    (hr : RelItem cap p.pk p.vals x y) (hb : RelB cap p.pk p.vals st ist) (h0 : x.1.kids = .nil ∨ x.2 = 0)
    (h : inc fuel it = .ok it') :
    ∃ pit', pInc cap p.pk fuel pit = .ok pit' ∧ Rel cap p it' pit' ∧
      (it'.kind = .normal → ∃ m st', it'.stack = (m, 0) :: st' ∧ m.val.isSome) ∧ (it'.kind = .normal ∨ it'.kind = .end_) := by
  induction fuel generalizing it pit x st y ist with
  | zero => simp [inc] at h
  | succ fuel ih =>
    obtain ⟨n, i⟩ := x
    simp only [inc, hs] at h
    simp only [pInc, hs', rd_of hr.enc.head.size, obind_ok]
    cases hk : n.kids with
    | nil =>
      simp only [hk] at h
      rw [if_pos (by simp [Kids.length])]
      obtain ⟨pit1, e1, e2, e3, x1, st1, y1, ist1, e4, e5, e6, e7, e8, e9⟩ := pGoUp_spec (p := p) pit.cur st ist (n, i) y it.buf hr hb
      rw [hbuf, e1]
      simp only [obind_ok, e3]
      rcases e9 with e9 | e9
      · rw [e9] at h ⊢
        simp only [reduceCtorEq, if_false] at h ⊢
        obtain ⟨m, j⟩ := x1
        have hj := e8 e9
        simp only at hj
        subst hj
        simp only [e4] at h
        simp only [e5]
        rcases e6.enc.head.rd_val with ⟨v1, v2⟩ | ⟨w, v1, v2, v3, v4⟩
        · simp only [v2, obind_ok, if_true]
          simp only at v1
          simp only [v1, Option.isSome_none, Bool.false_eq_true, if_false] at h
          exact ih (goUp (n, i) st it.buf) pit1 (m, 0) st1 y1 ist1 e4 e5 e2 e6 e7 (Or.inr rfl) h
        · simp only [v1, if_true, Outcome.ok.injEq] at h
          simp only [v2, obind_ok, if_neg v3]
          subst h
          exact ⟨_, rfl, ⟨e2, e9.symm, _, _, _, _, e4, rfl, e6, e7, fun _ => v4⟩, fun _ => ⟨m, st1, e4, v1⟩, Or.inl e9⟩
      · rw [e9] at h ⊢
        simp only [if_true, Outcome.ok.injEq] at h ⊢
        subst h
        refine ⟨pit1, rfl, ⟨e2, e3, x1, st1, y1, ist1, e4, e5, e6, e7, fun hh => ?_⟩, fun hh => ?_, Or.inr e9⟩
        · rw [e9] at hh; cases hh
        · rw [e9] at hh; cases hh
    | cons c v k r =>
      simp only [hk, reduceCtorEq, if_false] at h
      have hi : i = 0 := by
        rcases h0 with h0 | h0
        · simp only at h0; rw [hk] at h0; cases h0
        · exact h0
      subst hi
      rw [if_neg (by simp [Kids.length])]
      obtain ⟨q, e1, e2⟩ := pushChild_spec (x := (n, 0)) (c := c) (n := ⟨v, k⟩) ist it.buf y.pos 0 hr.enc (by rw [hk]; rfl) hr.pos
      rw [hbuf, e1]
      simp only [obind_ok, reduceCtorEq, if_false]
      have hr2 : RelItem cap p.pk p.vals ((⟨v, k⟩ : Node V), 0) ⟨q, q + 2, q + 2 + 2 * k.length⟩ := ⟨e2, rfl, rfl⟩
      have hb2 : RelB cap p.pk p.vals ((n, 0) :: st) (y :: ist) := ⟨hr, by simp [hk, Kids.length], hb⟩
      rcases e2.head.rd_val with ⟨v1, v2⟩ | ⟨w, v1, v2, v3, v4⟩
      · simp only [v2, obind_ok, if_true]
        simp only at v1
        subst v1
        simp only [Option.isSome_none, Bool.false_eq_true, if_false] at h
        exact ih ⟨(⟨none, k⟩, 0) :: (n, 0) :: st, it.buf ++ [c], .normal⟩ _ _ _ _ _ rfl rfl rfl hr2 hb2 (Or.inr rfl) h
      · simp only at v1
        simp only [v1, if_true, Outcome.ok.injEq] at h
        simp only [v2, obind_ok, if_neg v3]
        subst h
        exact ⟨_, rfl, ⟨rfl, rfl, _, _, _, _, rfl, rfl, hr2, hb2, fun _ => v4⟩, fun _ => ⟨_, _, rfl, v1⟩, Or.inl rfl⟩

/-- A position from which `++` is in step: at a node with a value, before its children. -/
def Fresh (it : Iter V) : Prop := it.kind = .normal → ∃ m st, it.stack = (m, 0) :: st ∧ m.val.isSome

theorem Rel.deref {cap : Nat} {p : Packed V} {it : Iter V} {pit : PIter} (h : Rel cap p it pit) :
    pDeref p.vals pit = Trie.deref it := by
  obtain ⟨hb, hk, x, st, y, ist, h1, h2, h3, h4, h5⟩ := h
  unfold pDeref Trie.deref
  rw [hk, h1, hb]
  cases hkind : it.kind with
  | normal => simp only [h5 hkind]
  | end_ => rfl
  | empty => rfl

/-- Offset of the bottom item. -/
def bot (st : List Item) : Option Nat := st.getLast?.map (·.node)

theorem bot_cons (y z : Item) (st : List Item) : bot (y :: z :: st) = bot (z :: st) := by simp [bot]

theorem bot_repos (y z : Item) (st : List Item) (h : y.node = z.node) : bot (y :: st) = bot (z :: st) := by
  cases st with
  | nil => simp [bot, h]
  | cons a st => rw [bot_cons, bot_cons]

theorem pushChild_bot {pk : List Nat} {st : List Item} {buf : Key} {cp : Nat} {x : List Item × Key}
    (h : pushChild pk st buf cp = .ok x) : bot x.1 = bot st := by
  cases st with
  | nil => simp [pushChild] at h
  | cons top st =>
    simp only [pushChild] at h
    cases h1 : rd pk cp with
    | err e => simp [h1] at h
    | ub => simp [h1] at h
    | ok c =>
      simp only [h1, obind_ok] at h
      cases h2 : rd pk (cp + 1) with
      | err e => simp [h2] at h
      | ub => simp [h2] at h
      | ok off =>
        simp only [h2, obind_ok] at h
        split at h
        · cases h3 : rd pk (top.node - off + 1) with
          | err e => simp [h3] at h
          | ub => simp [h3] at h
          | ok idx =>
            simp only [h3, obind_ok, Outcome.ok.injEq] at h
            subst h
            exact bot_cons _ _ _
        · cases h

theorem pGoUp_bot {pk : List Nat} {cur : Nat} : (st : List Item) → (top : Item) → (buf : Key) → (it : PIter) →
    pGoUp pk cur top st buf = .ok it → bot it.stack = bot (top :: st)
  | [], top, buf, it, h => by
    simp only [pGoUp, Outcome.ok.injEq] at h
    subst h; rfl
  | si :: st, top, buf, it, h => by
    rw [bot_cons]
    simp only [pGoUp] at h
    split at h
    · cases h1 : pushChild pk ({ si with pos := si.pos + 2 } :: st) buf.dropLast (si.pos + 2) with
      | err e => rw [h1] at h; simp at h
      | ub => rw [h1] at h; simp at h
      | ok x =>
        rw [h1] at h
        simp only [obind_ok, Outcome.ok.injEq] at h
        subst h
        simp only
        rw [pushChild_bot h1]
        exact bot_repos _ _ _ rfl
    · rw [pGoUp_bot st _ _ _ h]
      exact bot_repos _ _ _ rfl

theorem pInc_bot {cap : Nat} {pk : List Nat} (fuel : Nat) (it it' : PIter) (h : pInc cap pk fuel it = .ok it') :
    bot it'.stack = bot it.stack := by
  induction fuel generalizing it with
  | zero => simp [pInc] at h
  | succ fuel ih =>
    obtain ⟨stack, buf, cur, kind⟩ := it
    cases stack with
    | nil => simp [pInc] at h
    | cons si st =>
      simp only [pInc] at h
      cases h1 : rd pk (si.node + 1) with
      | err e => simp [h1] at h
      | ub => simp [h1] at h
      | ok idx =>
        simp only [h1, obind_ok] at h
        revert h
        generalize hy : (if idx = 0 then pGoUp pk cur si st buf else (pushChild pk (si :: st) buf si.pos).bind fun x =>
          .ok (⟨x.1, x.2, cur, .normal⟩ : PIter)) = y
        intro h
        cases y with
        | err e => simp at h
        | ub => simp at h
        | ok z =>
          simp only [obind_ok] at h
          have hz : bot z.stack = bot (si :: st) := by
            split at hy
            · exact pGoUp_bot _ _ _ _ hy
            · cases h2 : pushChild pk (si :: st) buf si.pos with
              | err e => simp [h2] at hy
              | ub => simp [h2] at hy
              | ok x =>
                simp only [h2, obind_ok, Outcome.ok.injEq] at hy
                subst hy
                exact pushChild_bot h2
          split at h
          · cases h; exact hz
          · cases hs : z.stack with
            | nil => simp [hs] at h
            | cons t l =>
              simp only [hs] at h
              cases h3 : rd pk t.node with
              | err e => simp [h3] at h
              | ub => simp [h3] at h
              | ok v =>
                simp only [h3, obind_ok] at h
                split at h
                · rw [ih _ h, hz]
                · cases h; rw [hs] at hz; simpa using hz

theorem findPath_bot {pk : List Nat} : ∀ (k : Key) (p0 : Nat) (ist : List Item) (res : List Item), findPath pk k p0 ist = .ok (some res) →
    bot res = if ist = [] then some p0 else bot ist := by
  intro k
  induction k with
  | nil =>
    intro p0 ist res hh
    simp only [findPath] at hh
    cases hr : rd pk (p0 + 1) with
    | err e => simp [hr] at hh
    | ub => simp [hr] at hh
    | ok idx =>
      simp only [hr, obind_ok, Outcome.ok.injEq, Option.some.injEq] at hh
      subst hh
      cases ist with
      | nil => rfl
      | cons a b => simp [bot_cons]
  | cons c k ih =>
    intro p0 ist res hh
    simp only [findPath] at hh
    cases hr : rd pk (p0 + 1) with
    | err e => simp [hr] at hh
    | ub => simp [hr] at hh
    | ok idx =>
      simp only [hr, obind_ok] at hh
      split at hh
      · cases hh
      · cases hc : findChild pk (p0 + 2) c (idx / 2) 0 (idx / 2 - 1) with
        | err e => simp [hc] at hh
        | ub => simp [hc] at hh
        | ok o =>
          simp only [hc, obind_ok] at hh
          cases o with
          | none => cases hh
          | some cp =>
            simp only at hh
            cases hr2 : rd pk (cp + 1) with
            | err e => simp [hr2] at hh
            | ub => simp [hr2] at hh
            | ok off =>
              simp only [hr2, obind_ok] at hh
              split at hh
              · rw [ih _ _ _ hh, if_neg (by simp)]
                cases ist with
                | nil => rfl
                | cons a b => simp [bot_cons]
              · cases hh


theorem pLeftmost_bot {cap : Nat} {pk : List Nat} : ∀ (fuel : Nat) (st : List Item) (buf : Key) (pit : PIter),
    pLeftmost cap pk fuel st buf = .ok pit → bot pit.stack = bot st := by
  intro fuel
  induction fuel with
  | zero => intro st buf pit hh; simp [pLeftmost] at hh
  | succ fuel ih =>
    intro st buf pit hh
    cases st with
    | nil => simp [pLeftmost] at hh
    | cons top st =>
      simp only [pLeftmost] at hh
      cases hr : rd pk top.node with
      | err e => simp [hr] at hh
      | ub => simp [hr] at hh
      | ok v =>
        simp only [hr, obind_ok] at hh
        split at hh
        · cases hc : pushChild pk (top :: st) buf top.pos with
          | err e => simp [hc] at hh
          | ub => simp [hc] at hh
          | ok x =>
            simp only [hc, obind_ok] at hh
            rw [ih _ _ _ hh, pushChild_bot hc]
        · cases hh; rfl


/-- Packed iterator at entry `i` of the tree represented at offset `r`. -/
def PAt (cap : Nat) (p : Packed V) (r : Nat) (root : Node V) (pre : Key) (pit : PIter) (i : Nat) : Prop :=
  ∃ it, IterAt root pre it i ∧ Rel cap p it pit ∧ bot pit.stack = some r

theorem PAt.lt {cap : Nat} {p : Packed V} {r : Nat} {root : Node V} {pre : Key} {pit : PIter} {i : Nat}
    (h : PAt cap p r root pre pit i) : ∃ e, (entN pre root)[i]? = some e ∧ pDeref p.vals pit = some e := by
  obtain ⟨it, h1, h2, -⟩ := h
  rw [h2.deref]
  exact h1.lt

/-- The end position of a (sub)tree. -/
def IsEnd (r : Nat) (root : Node V) (pre : Key) (pit : PIter) : Prop :=
  pit.stack = [⟨r, r + 2 + 2 * root.kids.length, r + 2 + 2 * root.kids.length⟩] ∧ pit.buf = pre ∧ pit.kind = .end_

theorem PAt.inc {cap : Nat} {p : Packed V} {r : Nat} {root : Node V} {pre : Key} {pit : PIter} {i fuel : Nat}
    (h : PAt cap p r root pre pit i) (hf : root.kids.nodes < fuel) :
    (i + 1 = (entN pre root).length ∧ ∃ pit', pInc cap p.pk fuel pit = .ok pit' ∧ IsEnd r root pre pit') ∨
      ∃ pit', pInc cap p.pk fuel pit = .ok pit' ∧ PAt cap p r root pre pit' (i + 1) := by
  obtain ⟨it, h1, h2, h3⟩ := h
  obtain ⟨hbuf, hkind, x, st, y, ist, g1, g2, g3, g4, g5⟩ := id h2
  obtain ⟨m, st', k1, k2, k3, k4⟩ := h1.ex
  have hx0 : x.2 = 0 := by rw [g1] at k1; cases k1; rfl
  rcases h1.inc hf with ⟨e1, e2⟩ | ⟨it', e1, e2⟩
  · obtain ⟨pit', f1, f2, -, -⟩ := pInc_spec fuel it pit x st y ist _ g1 g2 hbuf g3 g4 (Or.inr hx0) e2
    left
    refine ⟨e1, pit', f1, ?_, f2.buf, f2.kind⟩
    have hb := pInc_bot _ _ _ f1
    obtain ⟨x', st', y', ist', q1, q2, q3, q4, -⟩ := f2.ex
    simp only [endIter] at q1
    cases q1
    cases ist' with
    | cons _ _ => exact q4.elim
    | nil =>
      rw [q2, h3] at hb
      simp only [bot, List.getLast?_singleton, Option.map_some, Option.some.injEq] at hb
      rw [q2]
      have a1 := q3.pos
      have a2 := q3.end_
      obtain ⟨u, v, w⟩ := y'
      simp only at hb a1 a2
      subst hb a1 a2
      rfl
  · obtain ⟨pit', f1, f2, -, -⟩ := pInc_spec fuel it pit x st y ist _ g1 g2 hbuf g3 g4 (Or.inr hx0) e1
    right
    exact ⟨pit', f1, it', e2, f2, by rw [pInc_bot _ _ _ f1, h3]⟩

/-- The loop over a range. -/
theorem pCollect_spec {cap : Nat} {p : Packed V} {r : Nat} {root : Node V} {pre pre' : Key} (fuel m : Nat) (it last : PIter) (i : Nat)
    (h : PAt cap p r root pre it i) (hl : IsEnd r root pre' last)
    (hf : root.kids.nodes < fuel) (hm : (entN pre root).length < i + m) :
    pCollect cap p fuel m it last = .ok ((entN pre root).drop i) := by
  induction m generalizing it i with
  | zero =>
    obtain ⟨e, he, -⟩ := h.lt
    have := (List.getElem?_eq_some_iff.1 he).1
    omega
  | succ m ih =>
    obtain ⟨e, he, hd⟩ := h.lt
    obtain ⟨hlt, hge⟩ := List.getElem?_eq_some_iff.1 he
    have hne : pIterEq it last = false := by
      obtain ⟨it0, h1, h2, -⟩ := h
      simp [pIterEq, h2.kind, h1.kind, hl.2.2]
    unfold pCollect
    rw [hne, hd, List.drop_eq_getElem_cons hlt, hge]
    simp only [Bool.false_eq_true, if_false]
    rcases h.inc hf with ⟨e1, it', e2, e3⟩ | ⟨it', e1, e2⟩
    · rw [e2]
      simp only [obind_ok]
      rw [e1, List.drop_length]
      cases m with
      | zero => omega
      | succ m =>
        unfold pCollect
        have : pIterEq it' last = true := by simp [pIterEq, e3.1, e3.2.2, hl.1, hl.2.2]
        rw [this]; simp
    · rw [e1]
      simp only [obind_ok]
      rw [ih it' (i + 1) e2 (by omega)]
      rfl

/-! ### going back -/

theorem pDescPrev_spec {cap : Nat} {p : Packed V} (fuel : Nat) (x : Node V × Nat) (st : Stack V) (y : Item) (ist : List Item) (buf : Key)
    (st' : Stack V) (buf' : Key) (hr : RelItem cap p.pk p.vals x y) (hb : RelB cap p.pk p.vals st ist)
    (h : descPrev fuel (x :: st) buf = .ok (st', buf')) :
    ∃ x' s' y' ist', st' = x' :: s' ∧ pDescPrev p.pk fuel (y :: ist) buf = .ok (y' :: ist', buf') ∧
      RelItem cap p.pk p.vals x' y' ∧ RelB cap p.pk p.vals s' ist' := by
  induction fuel generalizing x st y ist buf with
  | zero => simp [descPrev] at h
  | succ fuel ih =>
    obtain ⟨n, i⟩ := x
    simp only [descPrev] at h
    cases i with
    | zero => simp at h
    | succ j =>
      simp only at h
      cases hg : n.kids.get? j with
      | none => simp [hg] at h
      | some ch =>
        obtain ⟨c, m⟩ := ch
        simp only [hg] at h
        obtain ⟨d, g1, g2, g3, g4⟩ := hr.enc.kids.get hg
        rw [Nat.zero_add] at g1 g2
        have hpos := hr.pos
        have hend := hr.end_
        simp only at hpos hend
        have r1 : rd p.pk (y.pos - 1) = .ok d := by
          rw [show y.pos - 1 = y.node + 2 + 2 * j + 1 by omega]; exact rd_of g2
        have r2 : rd p.pk (y.pos - 2) = .ok c := by
          rw [show y.pos - 2 = y.node + 2 + 2 * j by omega]; exact rd_of g1
        have hrm : RelItem cap p.pk p.vals (m, m.kids.length)
          ⟨y.node - d, y.node - d + 2 + 2 * m.kids.length, y.node - d + 2 + 2 * m.kids.length⟩ := ⟨g4, rfl, rfl⟩
        have hrb : RelB cap p.pk p.vals ((n, j) :: st) ({ y with pos := y.pos - 2 } :: ist) :=
          ⟨⟨hr.enc, by simp only; omega, hend⟩, Kids.get?_lt hg, hb⟩
        simp only [pDescPrev]
        rw [if_neg (by omega), r1, obind_ok, r2, obind_ok, if_pos g3, rd_of g4.head.size, obind_ok]
        by_cases he : m.kids.isEmpty = true
        · have hn := (isEmpty_iff _).1 he
          rw [if_pos he] at h
          simp only [Outcome.ok.injEq, Prod.mk.injEq] at h
          obtain ⟨rfl, rfl⟩ := h
          rw [if_pos (by simp [hn, Kids.length])]
          exact ⟨_, _, _, _, rfl, rfl, hrm, hrb⟩
        · rw [if_neg he] at h
          have hl : m.kids.length ≠ 0 := by
            cases hk : m.kids with
            | nil => rw [hk] at he; simp [Kids.isEmpty] at he
            | cons _ _ _ _ => simp [Kids.length]
          rw [if_neg (by omega)]
          exact ih _ _ _ _ _ hrm hrb h

/-- Going back on both sides, wherever the tree iterator arrives at an entry. -/
theorem pLand_spec {cap : Nat} {p : Packed V} {x' : Node V × Nat} {s' : Stack V} {y' : Item} {ist' : List Item} (buf : Key)
    (hr : RelItem cap p.pk p.vals x' y') (hb : RelB cap p.pk p.vals s' ist') (hv : x'.1.val.isSome) :
    ∃ pit', pLand p.pk (y' :: ist', buf) = .ok pit' ∧ Rel cap p ⟨x' :: s', buf, .normal⟩ pit' := by
  rcases hr.enc.head.rd_val with ⟨v1, v2⟩ | ⟨w, v1, v2, v3, v4⟩
  · rw [v1] at hv; cases hv
  · exact ⟨⟨y' :: ist', buf, w, .normal⟩, by simp [pLand, v2], rfl, rfl, _, _, _, _, rfl, rfl, hr, hb, fun _ => v4⟩

theorem pDecLeaf_spec {cap : Nat} {p : Packed V} (fuel : Nat) : (st : Stack V) → (ist : List Item) → (x : Node V × Nat) → (y : Item) →
    (buf : Key) → (it' : Iter V) → RelB cap p.pk p.vals st ist → decLeaf fuel (x :: st) buf = .ok it' →
    (∀ n s, it'.stack = n :: s → n.1.val.isSome) →
    ∃ pit', pDecLeaf cap p.pk fuel (y :: ist) buf = .ok pit' ∧ Rel cap p it' pit'
  | [], [], x, y, buf, it', _, h, _ => by simp [decLeaf] at h
  | [], _ :: _, _, _, _, _, h, _, _ => h.elim
  | _ :: _, [], _, _, _, _, h, _, _ => h.elim
  | (n, i) :: st, si :: ist, x, y, buf, it', hb, h, hv => by
    obtain ⟨h1, h2, h3⟩ := hb
    have hpos := h1.pos
    simp only at hpos
    rw [show decLeaf fuel (x :: (n, i) :: st) buf = if i ≠ 0 then
      match descPrev fuel ((n, i) :: st) buf.dropLast with
      | .ok (st', buf') => .ok ⟨st', buf', .normal⟩
      | .err e => .err e
      | .ub => .ub
    else if n.val.isSome then .ok ⟨(n, i) :: st, buf.dropLast, .normal⟩
    else decLeaf fuel ((n, i) :: st) buf.dropLast from rfl] at h
    rw [show pDecLeaf cap p.pk fuel (y :: si :: ist) buf = (rd p.pk si.node).bind fun v =>
      if si.pos ≠ si.node + 2 then (pDescPrev p.pk fuel (si :: ist) buf.dropLast).bind (pLand p.pk)
      else if v ≠ nullValue cap then .ok ⟨si :: ist, buf.dropLast, v, .normal⟩
      else pDecLeaf cap p.pk fuel (si :: ist) buf.dropLast from rfl]
    obtain ⟨w, hw⟩ : ∃ w, rd p.pk si.node = .ok w := by
      rcases h1.enc.head.rd_val with ⟨v1, v2⟩ | ⟨w, v1, v2, v3, v4⟩
      · exact ⟨_, v2⟩
      · exact ⟨_, v2⟩
    rw [hw, obind_ok]
    by_cases hi : i = 0
    · subst hi
      rw [if_neg (by simp)] at h
      rw [if_neg (by omega)]
      rcases h1.enc.head.rd_val with ⟨v1, v2⟩ | ⟨w', v1, v2, v3, v4⟩
      · rw [hw] at v2
        cases v2
        simp only at v1
        rw [if_neg (by simp [v1])] at h
        rw [if_neg (by simp)]
        exact pDecLeaf_spec fuel st ist (n, 0) si _ it' h3 h hv
      · rw [hw] at v2
        cases v2
        simp only at v1 v4
        rw [if_pos v1] at h
        simp only [Outcome.ok.injEq] at h
        subst h
        rw [if_pos v3]
        exact ⟨_, rfl, rfl, rfl, _, _, _, _, rfl, rfl, h1, h3, fun _ => v4⟩
    · rw [if_pos hi] at h
      rw [if_pos (by omega)]
      cases hd : descPrev fuel ((n, i) :: st) buf.dropLast with
      | err e => rw [hd] at h; cases h
      | ub => rw [hd] at h; cases h
      | ok z =>
        obtain ⟨st', buf'⟩ := z
        rw [hd] at h
        simp only [Outcome.ok.injEq] at h
        subst h
        obtain ⟨x', s', y', ist', e1, e2, e3, e4⟩ := pDescPrev_spec fuel _ _ si ist _ _ _ h1 h3 hd
        subst e1
        rw [e2, obind_ok]
        exact pLand_spec buf' e3 e4 (hv _ _ rfl)

theorem pDecInner_spec {cap : Nat} {p : Packed V} (fuel : Nat) : (st : Stack V) → (ist : List Item) → (x : Node V × Nat) → (y : Item) →
    (buf : Key) → (it' : Iter V) → RelB cap p.pk p.vals st ist → decInner fuel (x :: st) buf = .ok it' →
    (∀ n s, it'.stack = n :: s → n.1.val.isSome) →
    ∃ pit', pDecInner cap p.pk fuel (y :: ist) buf = .ok pit' ∧ Rel cap p it' pit'
  | [], [], x, y, buf, it', _, h, _ => by simp [decInner] at h
  | [], _ :: _, _, _, _, _, h, _, _ => h.elim
  | _ :: _, [], _, _, _, _, h, _, _ => h.elim
  | [(n, i)], [si], x, y, buf, it', hb, h, hv => by
    rw [show decInner fuel [x, (n, i)] buf = (match descPrev fuel [(n, i)] buf.dropLast with
      | .ok (st', buf') => .ok ⟨st', buf', .normal⟩
      | .err e => .err e
      | .ub => .ub) from rfl] at h
    rw [show pDecInner cap p.pk fuel [y, si] buf = (pDescPrev p.pk fuel [si] buf.dropLast).bind (pLand p.pk) from rfl]
    cases hd : descPrev fuel [(n, i)] buf.dropLast with
    | err e => rw [hd] at h; cases h
    | ub => rw [hd] at h; cases h
    | ok z =>
      obtain ⟨st', buf'⟩ := z
      rw [hd] at h
      simp only [Outcome.ok.injEq] at h
      subst h
      obtain ⟨x', s', y', ist', e1, e2, e3, e4⟩ := pDescPrev_spec fuel _ _ si [] _ _ _ hb.1 hb.2.2 hd
      subst e1
      rw [e2, obind_ok]
      exact pLand_spec buf' e3 e4 (hv _ _ rfl)
  | [_], _ :: _ :: _, _, _, _, _, h, _, _ => h.2.2.elim
  | _ :: _ :: _, [_], _, _, _, _, h, _, _ => h.2.2.elim
  | (n, i) :: q :: st, si :: t :: ist, x, y, buf, it', hb, h, hv => by
    obtain ⟨h1, h2, h3⟩ := hb
    rw [show decInner fuel (x :: (n, i) :: q :: st) buf = if n.val.isSome then .ok ⟨(n, i) :: q :: st, buf.dropLast, .normal⟩
      else decInner fuel ((n, i) :: q :: st) buf.dropLast from rfl] at h
    rw [show pDecInner cap p.pk fuel (y :: si :: t :: ist) buf = (rd p.pk si.node).bind fun v =>
      if v ≠ nullValue cap then .ok ⟨si :: t :: ist, buf.dropLast, v, .normal⟩
      else pDecInner cap p.pk fuel (si :: t :: ist) buf.dropLast from rfl]
    rcases h1.enc.head.rd_val with ⟨v1, v2⟩ | ⟨w', v1, v2, v3, v4⟩
    · simp only at v1
      rw [if_neg (by simp [v1])] at h
      rw [v2, obind_ok, if_neg (by simp)]
      exact pDecInner_spec fuel (q :: st) (t :: ist) (n, i) si _ it' h3 h hv
    · simp only at v1 v4
      rw [if_pos v1] at h
      simp only [Outcome.ok.injEq] at h
      subst h
      rw [v2, obind_ok, if_pos v3]
      exact ⟨_, rfl, rfl, rfl, _, _, _, _, rfl, rfl, h1, h3, fun _ => v4⟩

/-- `--` on both sides: whenever the tree iterator arrives at a node with a value, so does the packed one. -/
theorem pDec_spec {cap : Nat} {p : Packed V} (fuel : Nat) (it it' : Iter V) (pit : PIter) (hr : Rel cap p it pit)
    (h : dec fuel it = .ok it') (hv : ∀ n s, it'.stack = n :: s → n.1.val.isSome) :
    ∃ pit', pDec cap p.pk fuel pit = .ok pit' ∧ Rel cap p it' pit' := by
  obtain ⟨stack, buf, kind⟩ := it
  obtain ⟨pstack, pbuf, pcur, pkind⟩ := pit
  obtain ⟨hbuf, hkind, ⟨n, i⟩, st, y, ist, g1, g2, g3, g4, g5⟩ := hr
  simp only at hbuf hkind g1 g2 g5
  subst hbuf hkind g1 g2
  simp only [dec] at h
  simp only [pDec, rd_of g3.enc.head.size]
  obtain ⟨w, hw, hsome⟩ : ∃ w, rd p.pk y.node = .ok w ∧ ((w ≠ nullValue cap ∧ n.val.isSome ∧ n.val = p.vals[w]?) ∨
      (w = nullValue cap ∧ n.val = none)) := by
    rcases g3.enc.head.rd_val with ⟨v1, v2⟩ | ⟨w, v1, v2, v3, v4⟩
    · exact ⟨_, v2, Or.inr ⟨rfl, v1⟩⟩
    · exact ⟨_, v2, Or.inl ⟨v3, v1, v4⟩⟩
  simp only [hw, obind_ok]
  by_cases hc : pkind = .end_ ∧ n.val.isSome = true
  · rw [if_pos hc] at h
    simp only [Outcome.ok.injEq] at h
    subst h
    rcases hsome with ⟨a, b, c⟩ | ⟨a, b⟩
    · rw [if_pos ⟨hc.1, a⟩]
      exact ⟨_, rfl, rfl, rfl, _, _, _, _, rfl, rfl, g3, g4, fun _ => c⟩
    · rw [b] at hc; simp at hc
  · rw [if_neg hc] at h
    rw [if_neg (by
      rintro ⟨a, b⟩
      rcases hsome with ⟨a', b', c'⟩ | ⟨a', b'⟩
      · exact hc ⟨a, b'⟩
      · exact b a')]
    cases st with
    | nil =>
      cases ist with
      | cons _ _ => exact g4.elim
      | nil =>
        simp only [List.isEmpty_nil, if_true] at h ⊢
        cases hd : descPrev fuel [(n, i)] pbuf with
        | err e => rw [hd] at h; cases h
        | ub => rw [hd] at h; cases h
        | ok z =>
          obtain ⟨st', buf'⟩ := z
          rw [hd] at h
          simp only [Outcome.ok.injEq] at h
          subst h
          obtain ⟨x', s', y', ist', e1, e2, e3, e4⟩ := pDescPrev_spec fuel _ _ y [] _ _ _ g3 g4 hd
          subst e1
          rw [e2, obind_ok]
          exact pLand_spec buf' e3 e4 (hv _ _ rfl)
    | cons q st =>
      cases ist with
      | nil => exact g4.elim
      | cons t ist =>
        simp only [List.isEmpty_cons, Bool.false_eq_true, if_false] at h ⊢
        by_cases he : n.kids.isEmpty = true
        · rw [if_pos he] at h
          rw [if_pos (by simp [(isEmpty_iff _).1 he, Kids.length])]
          exact pDecLeaf_spec fuel _ _ _ _ _ _ g4 h hv
        · rw [if_neg he] at h
          have hl : n.kids.length ≠ 0 := by
            cases hk : n.kids with
            | nil => rw [hk] at he; simp [Kids.isEmpty] at he
            | cons _ _ _ _ => simp [Kids.length]
          rw [if_neg (by omega)]
          exact pDecInner_spec fuel _ _ _ _ _ _ g4 h hv

end Mdds.Packed
