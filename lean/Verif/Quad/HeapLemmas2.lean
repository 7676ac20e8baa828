import Verif.Quad.HeapLemmas
/-!
What each call does to the heap of `point_quad_tree`: it turns the tree of one container into another and touches no other
node.
-/
namespace Mdds.Quad

open NT

variable {V : Type}

/-- A call on one container: before, it owned the nodes of `t`, afterwards those of `t'`; all other nodes are as before. -/
structure Step (m : Mem V) (t : NT V) (m' : Mem V) (t' : NT V) : Prop where
  owns : Owns m' none t'
  distinct : t'.Distinct
  frame : ∀ b, b ∉ t.ids → b < m.next → m'.cell b = m.cell b
  gone : ∀ b ∈ t.ids, b ∉ t'.ids → m'.cell b = none
  ids : ∀ b ∈ t'.ids, b ∈ t.ids ∨ m.next ≤ b
  lt : ∀ b ∈ t'.ids, b < m'.next
  fresh : ∀ b, m.next ≤ b → b ∉ t'.ids → m'.cell b = none
  next : m.next ≤ m'.next

/-- What a container satisfies between calls. -/
structure Held (m : Mem V) (t : NT V) : Prop where
  owns : Owns m none t
  distinct : t.Distinct
  lt : ∀ b ∈ t.ids, b < m.next
  fresh : ∀ b, m.next ≤ b → m.cell b = none

theorem Held.step {m : Mem V} {t : NT V} (h : Held m t) : Step m t m t :=
  ⟨h.owns, h.distinct, fun _ _ _ => rfl, fun _ hb hb' => absurd hb hb', fun _ hb => .inl hb, h.lt, fun b hb _ => h.fresh b hb,
    Nat.le_refl _⟩

theorem Step.held {m m' : Mem V} {t t' : NT V} (h : Step m t m' t') : Held m' t' :=
  ⟨h.owns, h.distinct, h.lt, fun b hb => h.fresh b (Nat.le_trans h.next hb) fun hb' => absurd (h.lt b hb') (Nat.not_lt.2 hb)⟩

theorem Step.trans {m m' m'' : Mem V} {t t' t'' : NT V} (h1 : Step m t m' t') (h2 : Step m' t' m'' t'') : Step m t m'' t'' := by
  refine ⟨h2.owns, h2.distinct, fun b hb hlt => ?_, fun b hb hb' => ?_, fun b hb => ?_, h2.lt, fun b hb hb' => ?_, Nat.le_trans h1.next h2.next⟩
  · have hb1 : b ∉ t'.ids := fun h => by
      rcases h1.ids b h with h | h
      · exact hb h
      · omega
    rw [h2.frame b hb1 (Nat.lt_of_lt_of_le hlt h1.next)]
    exact h1.frame b hb hlt
  · by_cases hm : b ∈ t'.ids
    · exact h2.gone b hm hb'
    · have hc := h1.gone b hb hm
      by_cases hlt : b < m'.next
      · rw [h2.frame b hm hlt]; exact hc
      · exact h2.fresh b (by omega) hb'
  · rcases h2.ids b hb with h | h
    · exact h1.ids b h
    · exact .inr (Nat.le_trans h1.next h)
  · by_cases hm : b ∈ t'.ids
    · exact h2.gone b hm hb'
    · have hc := h1.fresh b hb hm
      by_cases hlt : b < m'.next
      · rw [h2.frame b hm hlt]; exact hc
      · exact h2.fresh b (by omega) hb'

theorem root_ne_nil {t : NT V} {a : Nat} (h : t.root = some a) : t ≠ nil := fun e => by rw [e] at h; cases h

/-! ### `insert` -/

theorem insertH_spec {m : Mem V} {t : NT V} (x y : Int) (d : V) (h : Held m t) :
    ∃ m', insertH x y d t.root m = .ok ((ins m.next x y d t).root, m') ∧ Step m t m' (ins m.next x y d t) := by
  have hnm : m.next ∉ t.ids := fun hb => Nat.lt_irrefl _ (h.lt _ hb)
  cases hroot : t.root with
  | none =>
    have ht : t = nil := by cases t with | nil => rfl | node => cases hroot
    subst ht
    refine ⟨?w, ?_, ?_⟩
    case w => exact { ((m.put m.next (some ⟨x, y, d, 0, none, none, none, none, none⟩)).put m.next (some ⟨x, y, d, 1, none, none, none, none, none⟩)) with next := m.next + 1 }
    · simp only [insertH]
      rw [addRef_eq (c := ⟨x, y, d, 0, none, none, none, none, none⟩) (by simp [alloc, Mem.put])]
      rfl
    · refine ⟨⟨⟨⟨x, y, d, 1, none, none, none, none, none⟩, by simp [Mem.put], rfl, rfl, rfl, rfl, rfl, fun q => by cases q <;> rfl⟩, fun _ => trivial⟩,
        ins_distinct h.distinct hnm, fun b _ hb => ?_, fun b hb => (nomatch hb), fun b hb => ?_, fun b hb => ?_, fun b hb hb' => ?_, Nat.le_succ _⟩
      · simp only [Mem.put]
        rw [if_neg (by omega), if_neg (by omega)]
      · rcases ins_ids hb with hb | hb
        · exact .inl hb
        · exact .inr (by omega)
      · rcases ins_ids hb with hb | hb
        · cases hb
        · exact hb ▸ Nat.lt_succ_self _
      · have : b ≠ m.next := fun e => hb' (e ▸ mem_node.2 (.inl rfl))
        simp only [Mem.put]
        rw [if_neg this, if_neg this]
        exact h.fresh b hb
  | some r =>
    have hne := root_ne_nil hroot
    have hri : (ins m.next x y d t).root = some r := (ins_root _ _ _ _ hne).trans hroot
    have hw := walk_spec x y h.owns hroot (f := m.next + 1) (Nat.le_succ_of_le (depth_le h.distinct h.lt))
    cases hl : look x y t with
    | none => exact absurd (look_none.1 hl) hne
    | some w =>
      obtain ⟨a, o⟩ := w
      rw [hl] at hw
      have hmem := look_mem hl
      have halt := h.lt a hmem
      cases o with
      | none =>
        obtain ⟨c, hc⟩ := h.owns.live hmem
        have hi := ins_found (n := m.next) (d := d) h.owns h.distinct hl hc (m' := m.put a (some { c with d := d })) (put_same _ _ _) (fun b hb => put_ne _ _ hb)
        refine ⟨m.put a (some { c with d := d }), ?_, hi.1, ins_distinct h.distinct hnm, fun b hb _ => ?_, fun b hb hb' => absurd ((hi.2 b).2 hb) hb', fun b hb => .inl ((hi.2 b).1 hb),
          fun b hb => h.lt b ((hi.2 b).1 hb), fun b hb _ => ?_, Nat.le_refl _⟩
        · simp only [insertH, hw, Outcome.ofOption_some, obind_ok]
          rw [upd_eq _ hc, hri]
          rfl
        · exact put_ne _ _ fun e => hb (e ▸ hmem)
        · rw [put_ne _ _ (by omega)]; exact h.fresh b hb
      | some q =>
        obtain ⟨c, hc, hcq⟩ := look_cell h.owns hl
        have hna : m.next ≠ a := by omega
        -- the heap after each part
        let e0 : Cell V := ⟨x, y, d, 0, none, none, none, none, none⟩
        let e1 : Cell V := ⟨x, y, d, 1, none, none, none, none, none⟩
        let e2 : Cell V := ⟨x, y, d, 1, some a, none, none, none, none⟩
        let m0 := (alloc x y d m).2
        let m1 := m0.put m.next (some e1)
        let m2 := m1.put a (some (c.setKid q (some m.next)))
        let m3 := m2.put a (some { c.setKid q (some m.next) with rc := c.rc + 1 })
        let m4 := m3.put m.next (some e2)
        have h0n : m0.cell m.next = some e0 := by show (if m.next = m.next then _ else _) = _; rw [if_pos rfl]
        have h0o : ∀ b, b ≠ m.next → m0.cell b = m.cell b := fun b hb => by show (if b = m.next then _ else _) = _; rw [if_neg hb]
        have h1a : m1.cell a = some c := (put_ne _ _ hna.symm).trans ((h0o a hna.symm).trans hc)
        have h2a : m2.cell a = some (c.setKid q (some m.next)) := put_same _ _ _
        have h2n : m2.cell m.next = some e1 := (put_ne _ _ hna).trans (put_same _ _ _)
        have h3n : m3.cell m.next = some e1 := (put_ne _ _ hna).trans h2n
        have h4n : m4.cell m.next = some e2 := put_same _ _ _
        have h4a : m4.cell a = some ({ c with rc := c.rc + 1 }.setKid q (some m.next)) := by
          rw [put_ne _ _ hna.symm, put_same]
          cases q <;> rfl
        have h4o : ∀ b, b ≠ a → b ≠ m.next → m4.cell b = m.cell b := fun b hb hb' => by
          rw [put_ne _ _ hb', put_ne _ _ hb, put_ne _ _ hb, put_ne _ _ hb', h0o b hb']
        have hrun : insertH x y d (some r) m = .ok (some r, m4) := by
          simp only [insertH, hw, Outcome.ofOption_some, obind_ok]
          have s1 : assignKid a q (some (alloc x y d m).1) (alloc x y d m).2 = .ok m2 := by
            simp only [assignKid]
            rw [show addRef (some (alloc x y d m).1) (alloc x y d m).2 = .ok m1 from addRef_eq h0n]
            simp only [obind_ok]
            rw [get_eq h1a]
            simp only [obind_ok]
            rw [upd_eq _ h1a]
            simp only [obind_ok, hcq, release_none]
            rfl
          have s2 : assignPar (alloc x y d m).1 (some a) m2 = .ok m4 := by
            simp only [assignPar]
            rw [show addRef (some a) m2 = .ok m3 by
              rw [addRef_eq h2a]; simp only [setKid_rc]; rfl]
            simp only [obind_ok]
            rw [show m3.get (alloc x y d m).1 = .ok e1 from get_eq h3n]
            simp only [obind_ok]
            rw [show m3.upd (alloc x y d m).1 (fun c => { c with par := some a }) = .ok m4 from upd_eq _ h3n]
            simp only [obind_ok]
            exact release_none _
          rw [s1]
          simp only [obind_ok]
          rw [s2]
          rfl
        refine ⟨m4, by rw [hri]; exact hrun, ins_new h.owns h.distinct hnm hl hc h4a ⟨e2, h4n, rfl, rfl, rfl, rfl, rfl, fun r => by cases r <;> rfl⟩ h4o,
          ins_distinct h.distinct hnm, fun b hb hlt => h4o b (fun e => hb (e ▸ hmem)) (by omega), fun b hb hb' => absurd (ids_ins hb) hb', fun b hb => ?_, fun b hb => ?_, fun b hb hb' => ?_, Nat.le_succ _⟩
        · rcases ins_ids hb with hb | hb
          · exact .inl hb
          · exact .inr (by omega)
        · show b < m.next + 1
          rcases ins_ids hb with hb | hb
          · exact Nat.lt_succ_of_lt (h.lt b hb)
          · omega
        · by_cases e : b = m.next
          · -- the new node is in the tree
            exfalso
            subst e
            apply hb'
            clear * - hl
            revert hl
            induction t with
            | nil => intro hl; cases hl
            | node a0 x0 y0 d0 kids ih =>
              intro hl
              simp only [look] at hl
              simp only [ins]
              split at hl
              · cases hl
              · rename_i hne
                rw [if_neg hne]
                split at hl
                · next hln =>
                  cases hl
                  rw [look_none] at hln
                  refine mem_node.2 (.inr ⟨getQuadrant x0 y0 x y, ?_⟩)
                  rw [upd_same, hln]
                  exact mem_node.2 (.inl rfl)
                · next r hr =>
                  cases hl
                  refine mem_node.2 (.inr ⟨getQuadrant x0 y0 x y, ?_⟩)
                  rw [upd_same]
                  exact ih _ hr
          · rw [h4o b (by omega) e]; exact h.fresh b hb

/-! ### `remove` of a leaf -/

theorem root_none {t : NT V} (h : t.root = none) : t = nil := by
  cases t with
  | nil => rfl
  | node => cases h

theorem ids_nil {t : NT V} (h : t = nil) (b : Nat) : b ∉ t.ids := by
  subst h; exact fun h => nomatch h

/-- Taking a leaf from below its parent. -/
theorem look_parent {m : Mem V} {x y : Int} {p : Option Nat} {t : NT V} {a : Nat} {ca : Cell V} (h : Owns m p t) (hd : t.Distinct)
    (hl : look x y t = some (a, none)) (hr : t.root ≠ some a) (hc : m.cell a = some ca) (hleaf : ∀ q, ca.kid q = none) :
    ∃ b cb q, ca.par = some b ∧ ca.rc = 1 ∧ m.cell b = some cb ∧ (∀ r, cb.kid r = some a ↔ r = q) ∧ b ≠ a ∧ 2 ≤ cb.rc ∧ b ∈ t.ids ∧
      (∀ m' : Mem V, m'.cell b = some ({ cb with rc := cb.rc - 1 }.setKid q none) → (∀ e, e ≠ a → e ≠ b → m'.cell e = m.cell e) →
        Owns m' p (del x y t)) ∧ (del x y t).root = t.root ∧ a ∉ (del x y t).ids ∧ ∀ e ∈ t.ids, e ≠ a → e ∈ (del x y t).ids := by
  induction t generalizing p with
  | nil => cases hl
  | node b x0 y0 d0 kids ih =>
    obtain ⟨hd1, hd2, hd3⟩ := hd
    obtain ⟨⟨cb, hcb, rfl, rfl, rfl, hrc, hpar, hkid⟩, hk⟩ := h
    simp only [look] at hl
    simp only [del]
    split at hl
    · cases hl; exact absurd rfl hr
    · rename_i hne
      rw [if_neg hne]
      generalize hq0 : getQuadrant cb.x cb.y x y = q0 at hl ⊢
      split at hl
      · cases hl
      · next r hlk =>
        cases hl
        have hmem : a ∈ (kids q0).ids := look_mem hlk
        have hba : b ≠ a := fun e => hd1 q0 (e ▸ hmem)
        by_cases hra : (kids q0).root = some a
        · -- the leaf is a child of this node
          cases hkq : kids q0 with
          | nil => rw [hkq] at hra; cases hra
          | node a' x1 y1 d1 kids1 =>
            rw [hkq] at hra; cases hra
            have hown := hk q0
            rw [hkq] at hown
            obtain ⟨⟨ca', hca', rfl, rfl, rfl, hrc1, hpar1, hkid1⟩, _⟩ := hown
            rw [hc] at hca'; cases hca'
            have hnil : ∀ q, kids1 q = nil := fun q => root_none (by rw [← hkid1 q]; exact hleaf q)
            have hcnt1 : cnt kids1 = 0 := by simp [cnt, hnil, occ]
            have hdel : del x y (kids q0) = nil := by
              rw [hkq] at hlk ⊢
              simp only [look] at hlk
              simp only [del]
              split
              · rfl
              · rename_i hne1
                rw [if_neg hne1, hnil] at hlk
                simp [look] at hlk
            have hidq : ∀ e ∈ (kids q0).ids, e = a := by
              intro e he
              rw [hkq] at he
              rcases mem_node.1 he with he | ⟨q, he⟩
              · exact he
              · rw [hnil] at he; cases he
            have hcnt := cnt_upd kids q0 (del x y (kids q0))
            have hocc := occ_le_cnt kids q0
            have hoq : (kids q0).occ = 1 := by rw [hkq]; rfl
            have hon : (del x y (kids q0)).occ = 0 := by rw [hdel]; rfl
            have hslot : ∀ r, cb.kid r = some a ↔ r = q0 := by
              intro r
              rw [hkid r]
              constructor
              · intro hr1
                by_contra hrq
                exact hd3 r q0 hrq a (mem_root hr1) hmem
              · intro e; subst e; rw [hkq]; rfl
            rw [← hkq]
            refine ⟨b, cb, q0, hpar1, by omega, hcb, hslot, hba, by omega, mem_node.2 (.inl rfl), fun m' hb' hoth => ⟨⟨_, hb', by simp, by simp, by simp, ?_, by simpa using hpar, fun r => ?_⟩, fun r => ?_⟩, rfl, fun hin => ?_, fun e he hea => ?_⟩
            · simp only [setKid_rc]; omega
            · rw [kid_setKid]
              by_cases hrq : r = q0
              · subst hrq; rw [if_pos rfl, upd_same, hdel]; rfl
              · rw [if_neg hrq, upd_ne _ _ hrq, kid_rc]; exact hkid r
            · by_cases hrq : r = q0
              · subst hrq; rw [upd_same, hdel]; trivial
              · rw [upd_ne _ _ hrq]
                exact (hk r).congr fun e he => hoth e (fun h => hd3 r q0 hrq e he (h ▸ hmem)) (fun h => hd1 r (h ▸ he))
            · rcases mem_node.1 hin with h | ⟨r, h⟩
              · exact hba h.symm
              · by_cases hrq : r = q0
                · subst hrq; rw [upd_same, hdel] at h; cases h
                · rw [upd_ne _ _ hrq] at h; exact hd3 r q0 hrq a h hmem
            · rcases mem_node.1 he with h | ⟨r, h⟩
              · exact mem_node.2 (.inl h)
              · by_cases hrq : r = q0
                · subst hrq; exact absurd (hidq e h) hea
                · refine mem_node.2 (.inr ⟨r, ?_⟩)
                  rw [upd_ne _ _ hrq]; exact h
        · obtain ⟨b1, cb1, q1, i1, i2, i3, i4, i5, i6, i7, i8, i9, i10, i11⟩ := ih q0 (hk q0) (hd2 q0) hlk hra
          have hbb : b ≠ b1 := fun e => hd1 q0 (e ▸ i7)
          have hcnt := cnt_upd kids q0 (del x y (kids q0))
          have hocc := occ_root i9
          refine ⟨b1, cb1, q1, i1, i2, i3, i4, i5, i6, mem_kid i7, fun m' hb' hoth => ⟨⟨cb, (hoth b hba hbb).trans hcb, rfl, rfl, rfl, by omega, hpar, fun r => ?_⟩, fun r => ?_⟩, rfl, fun hin => ?_, fun e he hea => ?_⟩
          · by_cases hrq : r = q0
            · subst hrq; rw [upd_same, i9]; exact hkid _
            · rw [upd_ne _ _ hrq]; exact hkid _
          · by_cases hrq : r = q0
            · subst hrq; rw [upd_same]; exact i8 m' hb' hoth
            · rw [upd_ne _ _ hrq]
              exact (hk r).congr fun e he => hoth e (fun h => hd3 r q0 hrq e he (h ▸ hmem)) (fun h => hd3 r q0 hrq e he (h ▸ i7))
          · rcases mem_node.1 hin with h | ⟨r, h⟩
            · exact hba h.symm
            · by_cases hrq : r = q0
              · subst hrq; rw [upd_same] at h; exact i10 h
              · rw [upd_ne _ _ hrq] at h; exact hd3 r q0 hrq a h hmem
          · rcases mem_node.1 he with h | ⟨r, h⟩
            · exact mem_node.2 (.inl h)
            · refine mem_node.2 (.inr ⟨r, ?_⟩)
              by_cases hrq : r = q0
              · subst hrq; rw [upd_same]; exact i11 e h hea
              · rw [upd_ne _ _ hrq]; exact h

/-- `disconnect_node_from_parent` of a leaf that only its parent and `delete_node` own, then the end of `delete_node`. -/
theorem disconnect_leaf {m : Mem V} {a b : Nat} {ca cb : Cell V} {q : Quadrant} (hc : m.cell a = some ca) (hrc : ca.rc = 1)
    (hleaf : ∀ q, ca.kid q = none) (hp : ca.par = some b) (hb : m.cell b = some cb) (hq : ∀ r, cb.kid r = some a ↔ r = q)
    (hab : b ≠ a) (hrb : 2 ≤ cb.rc) :
    ∃ m' m'', (addRef (some a) m) = .ok m' ∧ m'.cell a = some { ca with rc := 2 } ∧ ((disconnect a m').bind fun m => (release (some a) m)) = .ok m'' ∧
      m''.next = m.next ∧ m''.cell a = none ∧ m''.cell b = some ({ cb with rc := cb.rc - 1 }.setKid q none) ∧
      ∀ e, e ≠ a → e ≠ b → m''.cell e = m.cell e := by
  obtain ⟨cx, cy, cd, crc, cpar, k1, k2, k3, k4⟩ := ca
  simp only at hp hrc
  subst hp hrc
  refine ⟨m.put a (some ⟨cx, cy, cd, 2, some b, k1, k2, k3, k4⟩), ?w, by rw [addRef_eq hc], put_same _ _ _, ?_, ?_⟩
  case w => exact ((((((m.put a (some ⟨cx, cy, cd, 2, some b, k1, k2, k3, k4⟩)).put a (some ⟨cx, cy, cd, 3, some b, k1, k2, k3, k4⟩)).put b (some (cb.setKid q none))).put a (some ⟨cx, cy, cd, 2, some b, k1, k2, k3, k4⟩)).put a (some ⟨cx, cy, cd, 1, some b, k1, k2, k3, k4⟩)).put a none).put b (some { cb.setKid q none with rc := cb.rc - 1 })
  · simp only [disconnect]
    rw [addRef_eq (put_same _ _ _)]
    simp only [obind_ok]
    rw [get_eq (put_same _ _ _)]
    simp only [obind_ok]
    have hgb : ∀ (c1 c2 : Option (Cell V)), ((m.put a c1).put a c2).cell b = some cb := fun _ _ => by
      rw [put_ne _ _ hab, put_ne _ _ hab]; exact hb
    rw [get_eq (hgb _ _)]
    simp only [obind_ok]
    have hsel : ∀ M : Mem V, (if cb.ne = some a then assignKid b .ne none M else if cb.nw = some a then assignKid b .nw none M
        else if cb.sw = some a then assignKid b .sw none M else if cb.se = some a then assignKid b .se none M else .err .general) = assignKid b q none M := by
      intro M
      have h1 := hq .ne; have h2 := hq .nw; have h3 := hq .sw; have h4 := hq .se
      simp only [Cell.kid] at h1 h2 h3 h4
      simp only [h1, h2, h3, h4]
      cases q <;> rfl
    rw [hsel]
    simp only [assignKid, addRef_none, obind_ok]
    rw [get_eq (hgb _ _)]
    simp only [obind_ok]
    rw [upd_eq _ (hgb _ _)]
    simp only [obind_ok]
    rw [(hq q).2 rfl, release_dec (c := ⟨cx, cy, cd, 3, some b, k1, k2, k3, k4⟩) (by rw [put_ne _ _ hab.symm, put_same]) (by simp)]
    simp only [obind_ok]
    rw [release_dec (c := ⟨cx, cy, cd, 2, some b, k1, k2, k3, k4⟩) (put_same _ _ _) (by simp)]
    simp only [obind_ok]
    rw [release_last_par (b := b) (c := ⟨cx, cy, cd, 1, some b, k1, k2, k3, k4⟩) (cb := cb.setKid q none) (put_same _ _ _) rfl (fun r => by have := hleaf r; cases r <;> exact this) rfl
      (by rw [put_ne _ _ hab, put_ne _ _ hab, put_same]) hab (by rw [setKid_rc]; omega)]
    simp
  · refine ⟨rfl, ?_, ?_, fun e hea heb => ?_⟩
    · rw [put_ne _ _ hab.symm, put_same]
    · rw [put_same]; cases q <;> rfl
    · rw [put_ne _ _ heb, put_ne _ _ hea, put_ne _ _ hea, put_ne _ _ hea, put_ne _ _ heb, put_ne _ _ hea, put_ne _ _ hea]

/-- The walk in the tree without addresses. -/
theorem subtreeAt_tree {m : Mem V} {p : Option Nat} {x y : Int} {t : NT V} (h : Owns m p t) {a : Nat} {o : Option Quadrant} (hl : look x y t = some (a, o)) :
    (subtreeAt x y t.tree = .nil ↔ o ≠ none) ∧ ((subtreeAt x y t.tree).isLeaf = true → ∃ c, m.cell a = some c ∧ ∀ q, c.kid q = none) := by
  induction t generalizing p with
  | nil => cases hl
  | node b x0 y0 d0 kids ih =>
    obtain ⟨⟨cb, hcb, rfl, rfl, rfl, hrc, hpar, hkid⟩, hk⟩ := h
    simp only [look] at hl
    simp only [tree, subtreeAt]
    split at hl
    · rename_i he
      cases hl
      rw [if_pos he]
      refine ⟨by simp, fun hlf => ⟨cb, hcb, fun q => ?_⟩⟩
      have hn : ∀ q, (kids q).tree = .nil := by
        unfold Tree.isLeaf at hlf
        split at hlf
        · rename_i heq
          injection heq with e1 e2 e3 e4 h1 h2 h3 h4
          intro q; cases q <;> assumption
        · cases hlf
      rw [hkid q]
      have := hn q
      cases hkq : kids q with
      | nil => rfl
      | node => rw [hkq] at this; cases this
    · rename_i hne
      rw [if_neg hne]
      have hgen : ∀ q0, (match look x y (kids q0) with | none => some (b, some q0) | some r => some r) = some (a, o) →
          (subtreeAt x y (kids q0).tree = .nil ↔ o ≠ none) ∧ ((subtreeAt x y (kids q0).tree).isLeaf = true → ∃ c, m.cell a = some c ∧ ∀ q, c.kid q = none) := by
        intro q0 hl
        split at hl
        · next hln =>
          cases hl
          rw [look_none] at hln
          rw [hln]
          exact ⟨by simp [tree, subtreeAt], fun h => by simp [tree, subtreeAt, Tree.isLeaf] at h⟩
        · next r hr => cases hl; exact ih q0 (hk q0) hr
      have := hgen _ hl
      revert this
      generalize getQuadrant cb.x cb.y x y = q
      cases q <;> exact id

/-- Removing an absent point, in the tree without addresses. -/
theorem absent_tree {x y : Int} {t : NT V} (h : subtreeAt x y t.tree = .nil) (top : Bool) : removeFrom x y top t.tree = .ok t.tree := by
  induction t generalizing top with
  | nil => simp [tree, removeFrom]
  | node b x0 y0 d0 kids ih =>
    simp only [tree, subtreeAt, removeFrom] at h ⊢
    by_cases he : x0 = x ∧ y0 = y
    · simp only [if_pos he] at h
      cases h
    · simp only [if_neg he] at h ⊢
      generalize getQuadrant x0 y0 x y = q at h ⊢
      cases q <;>
      · simp only at h ⊢
        rw [ih _ h]
        rfl

/-- Removing a leaf, in the tree without addresses. -/
theorem del_tree {x y : Int} {t : NT V} (h : (subtreeAt x y t.tree).isLeaf = true) (top : Bool) :
    removeFrom x y top t.tree = .ok (del x y t).tree := by
  induction t generalizing top with
  | nil => simp [tree, removeFrom, del]
  | node b x0 y0 d0 kids ih =>
    simp only [tree, subtreeAt, removeFrom, del] at h ⊢
    by_cases he : x0 = x ∧ y0 = y
    · simp only [if_pos he] at h ⊢
      rw [if_pos h]
      simp [tree]
    · simp only [if_neg he] at h ⊢
      generalize getQuadrant x0 y0 x y = q at h ⊢
      cases q <;>
      · simp only at h ⊢
        rw [ih _ h]
        simp [upd, tree]

theorem removeH_spec {m : Mem V} {t : NT V} (x y : Int) (h : Held m t)
    (hleg : subtreeAt x y t.tree = .nil ∨ (subtreeAt x y t.tree).isLeaf = true) :
    ∃ m' t', removeH x y t.root m = .ok (t'.root, m') ∧ removePt t.tree x y = .ok t'.tree ∧ Step m t m' t' := by
  cases hroot : t.root with
  | none =>
    have ht := root_none hroot
    subst ht
    exact ⟨m, nil, rfl, rfl, h.step⟩
  | some r =>
    have hne := root_ne_nil hroot
    have hw := walk_spec x y h.owns hroot (f := m.next + 1) (Nat.le_succ_of_le (depth_le h.distinct h.lt))
    cases hl : look x y t with
    | none => exact absurd (look_none.1 hl) hne
    | some w =>
      obtain ⟨a, o⟩ := w
      rw [hl] at hw
      obtain ⟨hs1, hs2⟩ := subtreeAt_tree h.owns hl
      have hmem := look_mem hl
      have halt := h.lt a hmem
      cases o with
      | some q =>
        have hn := hs1.2 (by simp)
        refine ⟨m, t, ?_, absent_tree hn true, h.step⟩
        simp only [removeH, hw, Outcome.ofOption_some, obind_ok, hroot]
      | none =>
        have hn : subtreeAt x y t.tree ≠ .nil := fun hh => (hs1.1 hh) rfl
        have hdt := del_tree (hleg.resolve_left hn) true
        obtain ⟨c, hc, hleaf⟩ := hs2 (hleg.resolve_left hn)
        have hcleaf : ∀ n, ({ c with rc := n } : Cell V).leaf = true := by
          intro n
          have h1 := hleaf .ne; have h2 := hleaf .nw; have h3 := hleaf .se; have h4 := hleaf .sw
          simp only [Cell.kid] at h1 h2 h3 h4
          simp [Cell.leaf, h1, h2, h3, h4]
        by_cases har : a = r
        · subst har
          cases t with
          | nil => cases hroot
          | node a' x0 y0 d0 kids =>
            cases hroot
            obtain ⟨⟨cb, hcb, rfl, rfl, rfl, hrc, hpar, hkid⟩, hk⟩ := h.owns
            rw [hc] at hcb; cases hcb
            have hnil : ∀ q, kids q = nil := fun q => root_none (by rw [← hkid q]; exact hleaf q)
            have hcnt1 : cnt kids = 0 := by simp [cnt, hnil, occ]
            have hrc1 : c.rc = 1 := by omega
            have hdel : del x y (node a c.x c.y c.d kids) = nil := by
              simp only [look] at hl
              simp only [del]
              split
              · rfl
              · rename_i hne1
                rw [if_neg hne1, hnil] at hl
                simp [look] at hl
            have hids : ∀ b ∈ (node a c.x c.y c.d kids).ids, b = a := by
              intro b hb
              rcases mem_node.1 hb with hb | ⟨q, hb⟩
              · exact hb
              · rw [hnil] at hb; cases hb
            rw [hdel] at hdt
            refine ⟨((m.put a (some { c with rc := 2 })).put a (some { c with rc := 1 })).put a none, nil, ?_, hdt, trivial, trivial, fun b hb _ => ?_, fun b hb _ => ?_, fun b hb => (nomatch hb), fun b hb => (nomatch hb), fun b hb _ => ?_, Nat.le_refl _⟩
            · simp only [removeH, hw, Outcome.ofOption_some, obind_ok]
              rw [addRef_eq hc, hrc1]
              simp only [obind_ok]
              rw [get_eq (put_same _ _ _)]
              simp only [obind_ok]
              rw [if_pos (hcleaf _), if_pos trivial, release_dec (put_same _ _ _) (by simp)]
              simp only [obind_ok]
              rw [release_last (c := { c with rc := 1 }) (put_same _ _ _) rfl (fun q => by rw [kid_rc]; exact hleaf q) hpar]
              rfl
            · have : b ≠ a := fun e => hb (mem_node.2 (.inl e))
              rw [put_ne _ _ this, put_ne _ _ this, put_ne _ _ this]
            · rw [hids b hb, put_same]
            · have : b ≠ a := by omega
              rw [put_ne _ _ this, put_ne _ _ this, put_ne _ _ this]
              exact h.fresh b hb
        · obtain ⟨b, cb, q, p1, p2, p3, p4, p5, p6, p7, p8, p9, p10, p11⟩ :=
            look_parent h.owns h.distinct hl (by rw [hroot]; exact fun e => har (Option.some.inj e).symm) hc hleaf
          obtain ⟨m1, m2, s1, s2, s3, s4, s5, s6, s7⟩ := disconnect_leaf hc p2 hleaf p1 p3 p4 p5 p6
          have hlb := h.lt b p7
          refine ⟨m2, del x y t, ?_, hdt, p8 m2 s6 s7, del_distinct h.distinct, fun e he _ => s7 e (fun hh => he (hh ▸ hmem)) (fun hh => he (hh ▸ p7)), fun e he he' => ?_, fun e he => .inl (del_ids he), fun e he => s4 ▸ h.lt e (del_ids he), fun e he _ => ?_, Nat.le_of_eq s4.symm⟩
          · simp only [removeH, hw, Outcome.ofOption_some, obind_ok]
            rw [s1]
            simp only [obind_ok]
            rw [get_eq s2]
            simp only [obind_ok]
            rw [if_pos (hcleaf _), if_neg har, p9, hroot]
            cases hdd : disconnect a m1 with
            | ok m3 =>
              rw [hdd] at s3
              simp only [obind_ok] at s3 ⊢
              rw [s3]
              rfl
            | err e => rw [hdd] at s3; cases s3
            | ub => rw [hdd] at s3; cases s3
          · by_cases hea : e = a
            · subst hea; exact s5
            · exact absurd (p11 e he hea) he'
          · rw [s7 e (by omega) (by omega)]; exact h.fresh e he

end Mdds.Quad
