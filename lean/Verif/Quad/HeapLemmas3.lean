import Verif.Quad.HeapLemmas2
/-!
Clearing and copying in the memory model of `point_quad_tree`.
-/
namespace Mdds.Quad

open NT

variable {V : Type}

/-- One of the four parts of `disconnect_all_nodes`. -/
def dSide (f p : Nat) (q : Quadrant) (m : Mem V) : Outcome (Mem V) := (m.get p).bind fun c => match c.kid q with
  | none => .ok m
  | some k => (disconnectAll f k m).bind (assignKid p q none)

theorem disconnectAll_succ (f p : Nat) (m : Mem V) : disconnectAll (f + 1) p m =
    (addRef (some p) m).bind fun m => (dSide f p .ne m).bind fun m => (dSide f p .nw m).bind fun m => (dSide f p .se m).bind fun m =>
      (dSide f p .sw m).bind fun m => (assignPar p none m).bind (release (some p)) := by
  rw [disconnectAll]; rfl

/-- What `disconnect_all_nodes` of the subtree `t` at `a` leaves: the root alone, without pointers, its parent with one owner
less, nothing of the rest. -/
structure Severed (m : Mem V) (t : NT V) (a : Nat) (c : Cell V) (kids : Quadrant → NT V) (m' : Mem V) : Prop where
  next : m'.next = m.next
  self : ∃ c', m'.cell a = some c' ∧ c'.rc = c.rc - cnt kids ∧ c'.par = none ∧ ∀ q, c'.kid q = none
  gone : ∀ q, ∀ b ∈ (kids q).ids, m'.cell b = none
  par : ∀ b cb, c.par = some b → m.cell b = some cb → m'.cell b = some { cb with rc := cb.rc - 1 }
  frame : ∀ b, b ∉ t.ids → c.par ≠ some b → m'.cell b = m.cell b

/-- The induction hypothesis of `disconnectAll_spec`. -/
def SeveredOk (f : Nat) (t : NT V) : Prop :=
  ∀ (a : Nat) (x y : Int) (d : V) (kids : Quadrant → NT V) (m : Mem V) (c : Cell V), t = node a x y d kids → t.depth ≤ f → m.cell a = some c →
    (∀ q, c.kid q = (kids q).root) → (∀ q, Owns m (some a) (kids q)) → t.Distinct → 1 + cnt kids ≤ c.rc →
    (∀ b, c.par = some b → b ∉ t.ids ∧ ∃ cb, m.cell b = some cb ∧ 2 ≤ cb.rc) →
    ∃ m', disconnectAll f a m = .ok m' ∧ Severed m t a c kids m'

theorem dSide_spec {f p : Nat} {q : Quadrant} {m : Mem V} {c : Cell V} {t : NT V} (hih : SeveredOk f t) (hc : m.cell p = some c)
    (hk : c.kid q = t.root) (ho : Owns m (some p) t) (hd : t.Distinct) (hp : p ∉ t.ids) (hf : t.depth ≤ f) (hrc : t.occ + 1 ≤ c.rc) :
    ∃ m', dSide f p q m = .ok m' ∧ m'.next = m.next ∧ m'.cell p = some ({ c with rc := c.rc - t.occ }.setKid q none) ∧
      (∀ b ∈ t.ids, m'.cell b = none) ∧ ∀ b, b ∉ t.ids → b ≠ p → m'.cell b = m.cell b := by
  cases t with
  | nil =>
    refine ⟨m, ?_, rfl, ?_, fun b hb => (nomatch hb), fun _ _ _ => rfl⟩
    · simp [dSide, get_eq hc, hk, root]
    · rw [hc]
      have : c.kid q = none := hk
      obtain ⟨cx, cy, cd, crc, cpar, k1, k2, k3, k4⟩ := c
      cases q <;> simp_all [Cell.setKid, Cell.kid, occ]
  | node k x y d kids =>
    obtain ⟨⟨ck, hck, rfl, rfl, rfl, hrck, hpark, hkidk⟩, hok⟩ := ho
    have hkp : p ≠ k := fun e => hp (mem_node.2 (.inl e))
    have hoc : (node k ck.x ck.y ck.d kids).occ = 1 := rfl
    obtain ⟨m1, r1, cut⟩ := hih k ck.x ck.y ck.d kids m ck rfl hf hck hkidk hok hd (by omega) (fun b hb => by
      rw [hpark] at hb; cases hb
      exact ⟨hp, c, hc, by omega⟩)
    obtain ⟨ck', hk1, hk2, hk3, hk4⟩ := cut.self
    have hp1 := cut.par p c hpark hc
    have hk2' : ck'.rc = 1 := by omega
    refine ⟨(m1.put p (some ({ c with rc := c.rc - 1 }.setKid q none))).put k none, ?_, cut.next, ?_, fun b hb => ?_, fun b hb hbp => ?_⟩
    · simp only [dSide, get_eq hc, obind_ok, hk, root, r1]
      simp only [assignKid, addRef_none, obind_ok]
      rw [get_eq hp1]
      simp only [obind_ok]
      rw [upd_eq _ hp1]
      simp only [obind_ok, kid_rc, hk, root]
      exact release_last (by rw [put_ne _ _ hkp.symm]; exact hk1) hk2' hk4 hk3
    · rw [put_ne _ _ hkp, put_same, hoc]
    · rcases mem_node.1 hb with h | ⟨r, h⟩
      · subst h; exact put_same _ _ _
      · by_cases hbk : b = k
        · subst hbk; exact put_same _ _ _
        · rw [put_ne _ _ hbk, put_ne _ _ (fun e : b = p => hp (e ▸ (mem_kid h : b ∈ (node k ck.x ck.y ck.d kids).ids)))]
          exact cut.gone r b h
    · rw [put_ne _ _ (fun e => hb (mem_node.2 (.inl e))), put_ne _ _ hbp]
      exact cut.frame b hb (by rw [hpark]; exact fun e => hbp (Option.some.inj e).symm)

theorem disconnectAll_spec : ∀ (t : NT V) (f : Nat), SeveredOk f t := by
  intro t
  induction t with
  | nil => intro f a x y d kids m c h; cases h
  | node a x y d kids ih =>
    intro f a' x' y' d' kids' m c he hf hc hkid ho hd hrc hpar
    cases he
    obtain ⟨f, rfl⟩ : ∃ g, f = g + 1 := ⟨f - 1, by simp only [depth] at hf; omega⟩
    obtain ⟨hd1, hd2, hd3⟩ := hd
    have hdep : ∀ q, (kids q).depth ≤ f := fun q => by have := depth_kid a x y d kids q; omega
    have hocc : cnt kids = (kids .ne).occ + (kids .nw).occ + (kids .se).occ + (kids .sw).occ := rfl
    have hown : ∀ (q : Quadrant) (m' : Mem V), (∀ b ∈ (kids q).ids, m'.cell b = m.cell b) → Owns m' (some a) (kids q) := fun q m' h => (ho q).congr h
    rw [disconnectAll_succ, addRef_eq hc]
    simp only [obind_ok]
    let m0 := m.put a (some { c with rc := c.rc + 1 })
    have f0 : ∀ b, b ≠ a → m0.cell b = m.cell b := fun b hb => put_ne _ _ hb
    have na : ∀ {q b}, b ∈ (kids q).ids → b ≠ a := fun {q b} hb e => hd1 q (e ▸ hb)
    obtain ⟨m1, r1, n1, s1, g1, f1⟩ := dSide_spec (m := m0) (q := .ne) (ih .ne f) (put_same _ _ _) (by rw [kid_rc]; exact hkid .ne)
      (hown _ _ fun b hb => f0 b (na hb)) (hd2 _) (hd1 _) (hdep _) (by simp only; omega)
    obtain ⟨m2, r2, n2, s2, g2, f2⟩ := dSide_spec (q := .nw) (ih .nw f) s1 (by rw [kid_setKid]; simp only [reduceCtorEq, if_false]; rw [kid_rc, kid_rc]; exact hkid .nw)
      (hown _ _ fun b hb => by rw [f1 b (fun h => hd3 _ _ (by decide) b hb h) (na hb), f0 b (na hb)]) (hd2 _) (hd1 _) (hdep _) (by simp only [setKid_rc]; omega)
    obtain ⟨m3, r3, n3, s3, g3, f3⟩ := dSide_spec (q := .se) (ih .se f) s2 (by rw [kid_setKid]; simp only [reduceCtorEq, if_false]; rw [kid_rc, kid_setKid]; simp only [reduceCtorEq, if_false]; rw [kid_rc, kid_rc]; exact hkid .se)
      (hown _ _ fun b hb => by rw [f2 b (fun h => hd3 _ _ (by decide) b hb h) (na hb), f1 b (fun h => hd3 _ _ (by decide) b hb h) (na hb), f0 b (na hb)])
      (hd2 _) (hd1 _) (hdep _) (by simp only [setKid_rc]; omega)
    obtain ⟨m4, r4, n4, s4, g4, f4⟩ := dSide_spec (q := .sw) (ih .sw f) s3
      (by rw [kid_setKid]; simp only [reduceCtorEq, if_false]; rw [kid_rc, kid_setKid]; simp only [reduceCtorEq, if_false]; rw [kid_rc, kid_setKid]; simp only [reduceCtorEq, if_false]; rw [kid_rc, kid_rc]; exact hkid .sw)
      (hown _ _ fun b hb => by rw [f3 b (fun h => hd3 _ _ (by decide) b hb h) (na hb), f2 b (fun h => hd3 _ _ (by decide) b hb h) (na hb), f1 b (fun h => hd3 _ _ (by decide) b hb h) (na hb), f0 b (na hb)])
      (hd2 _) (hd1 _) (hdep _) (by simp only [setKid_rc]; omega)
    have r1' : dSide f a .ne (m.put a (some { c with rc := c.rc + 1 })) = .ok m1 := r1
    simp only [r1', r2, r3, r4, obind_ok]
    -- the root after the four parts
    obtain ⟨c4, hc4, hrc4, hpar4, hkid4⟩ : ∃ c4 : Cell V, m4.cell a = some c4 ∧ c4.rc = c.rc + 1 - cnt kids ∧ c4.par = c.par ∧ ∀ q, c4.kid q = none := by
      refine ⟨_, s4, ?_, ?_, fun q => ?_⟩
      · simp only [setKid_rc]; omega
      · simp only [setKid_par]
      · cases q <;> rfl
    clear s1 s2 s3 s4
    have hnotin : ∀ b, b ∉ (node a x y d kids).ids → b ≠ a ∧ ∀ q, b ∉ (kids q).ids := fun b hb => ⟨fun e => hb (mem_node.2 (.inl e)), fun q h => hb (mem_kid h)⟩
    have hfr : ∀ b, b ∉ (node a x y d kids).ids → m4.cell b = m.cell b := fun b hb => by
      obtain ⟨h1, h2⟩ := hnotin b hb
      rw [f4 b (h2 _) h1, f3 b (h2 _) h1, f2 b (h2 _) h1, f1 b (h2 _) h1, f0 b h1]
    have hgone : ∀ q, ∀ b ∈ (kids q).ids, m4.cell b = none := by
      intro q b hb
      have hba := na hb
      cases q
      · rw [f4 b (fun h => hd3 _ _ (by decide) b hb h) hba, f3 b (fun h => hd3 _ _ (by decide) b hb h) hba, f2 b (fun h => hd3 _ _ (by decide) b hb h) hba]
        exact g1 b hb
      · rw [f4 b (fun h => hd3 _ _ (by decide) b hb h) hba, f3 b (fun h => hd3 _ _ (by decide) b hb h) hba]
        exact g2 b hb
      · rw [f4 b (fun h => hd3 _ _ (by decide) b hb h) hba]
        exact g3 b hb
      · exact g4 b hb
    have hnext : m4.next = m.next := by rw [n4, n3, n2, n1]; rfl
    cases hcp : c.par with
    | none =>
      have hc4p : c4.par = none := hpar4.trans hcp
      refine ⟨(m4.put a (some { c4 with par := none })).put a (some { c4 with par := none, rc := c4.rc - 1 }), ?_, hnext, ?_, fun q b hb => ?_, fun b cb hb => ?_, fun b hb _ => ?_⟩
      · simp only [assignPar, addRef_none, obind_ok]
        rw [get_eq hc4]
        simp only [obind_ok]
        rw [upd_eq _ hc4]
        simp only [obind_ok]
        rw [hc4p, release_none]
        simp only [obind_ok]
        exact release_dec (c := { c4 with par := none }) (put_same _ _ _) (by simp only; omega)
      · refine ⟨_, put_same _ _ _, by simp only; omega, rfl, fun q => ?_⟩
        have := hkid4 q
        cases q <;> exact this
      · rw [put_ne _ _ (na hb), put_ne _ _ (na hb)]; exact hgone q b hb
      · rw [hcp] at hb; cases hb
      · rw [put_ne _ _ (hnotin b hb).1, put_ne _ _ (hnotin b hb).1]; exact hfr b hb
    | some b =>
      obtain ⟨hb1, cb, hcb, hrb⟩ := hpar b hcp
      have hc4p : c4.par = some b := hpar4.trans hcp
      have hba := (hnotin b hb1).1
      have hcb4 : m4.cell b = some cb := (hfr b hb1).trans hcb
      refine ⟨((m4.put a (some { c4 with par := none })).put b (some { cb with rc := cb.rc - 1 })).put a (some { c4 with par := none, rc := c4.rc - 1 }), ?_, hnext, ?_, fun q e he => ?_, fun e ce he hce => ?_, fun e he hep => ?_⟩
      · simp only [assignPar, addRef_none, obind_ok]
        rw [get_eq hc4]
        simp only [obind_ok]
        rw [upd_eq _ hc4]
        simp only [obind_ok]
        rw [hc4p, release_dec (c := cb) (by rw [put_ne _ _ hba]; exact hcb4) (by omega)]
        simp only [obind_ok]
        exact release_dec (c := { c4 with par := none }) (by rw [put_ne _ _ hba.symm, put_same]) (by simp only; omega)
      · refine ⟨_, put_same _ _ _, by simp only; omega, rfl, fun q => ?_⟩
        have := hkid4 q
        cases q <;> exact this
      · rw [put_ne _ _ (na he), put_ne _ _ (fun h : e = b => hb1 (h ▸ (mem_kid he : e ∈ (node a x y d kids).ids))), put_ne _ _ (na he)]; exact hgone q e he
      · rw [hcp] at he; cases he
        rw [hcb] at hce; cases hce
        rw [put_ne _ _ hba, put_same]
      · have h1 := (hnotin e he).1
        rw [put_ne _ _ h1, put_ne _ _ (fun h => hep (by rw [hcp, h])), put_ne _ _ h1]
        exact hfr e he

theorem clearH_spec {m : Mem V} {t : NT V} (h : Held m t) : ∃ m', clearH t.root m = .ok m' ∧ Step m t m' nil := by
  cases t with
  | nil => exact ⟨m, rfl, h.step⟩
  | node a x y d kids =>
    obtain ⟨⟨c, hc, rfl, rfl, rfl, hrc, hpar, hkid⟩, hk⟩ := h.owns
    obtain ⟨m1, r1, cut⟩ := disconnectAll_spec (node a c.x c.y c.d kids) (m.next + 1) a c.x c.y c.d kids m c rfl
      (Nat.le_succ_of_le (depth_le h.distinct h.lt)) hc hkid hk h.distinct (by omega) (fun b hb => by rw [hpar] at hb; cases hb)
    obtain ⟨c', s1, s2, s3, s4⟩ := cut.self
    refine ⟨m1.put a none, ?_, trivial, trivial, fun b hb _ => ?_, fun b hb _ => ?_, fun b hb => (nomatch hb), fun b hb => (nomatch hb), fun b hb _ => ?_, Nat.le_of_eq cut.next.symm⟩
    · simp only [clearH, root, r1, obind_ok]
      exact release_last s1 (by omega) s4 s3
    · rw [put_ne _ _ (fun e => hb (mem_node.2 (.inl e)))]
      exact cut.frame b hb (by rw [hpar]; exact fun e => nomatch e)
    · rcases mem_node.1 hb with e | ⟨q, e⟩
      · subst e; exact put_same _ _ _
      · by_cases hba : b = a
        · subst hba; exact put_same _ _ _
        · rw [put_ne _ _ hba]; exact cut.gone q b e
    · have hnb : b ∉ (node a c.x c.y c.d kids).ids := fun hm => by have := h.lt b hm; omega
      rw [put_ne _ _ (fun e => hnb (mem_node.2 (.inl e))), cut.frame b hnb (by rw [hpar]; exact fun e => nomatch e)]
      exact h.fresh b hb

/-! ### Copying -/

theorem allDataH_spec {m : Mem V} {p : Option Nat} {t : NT V} {f : Nat} (h : Owns m p t) (hf : t.depth ≤ f) :
    allDataH f t.root m = .ok (allData t.tree) := by
  induction t generalizing p f with
  | nil => cases f <;> rfl
  | node a x y d kids ih =>
    obtain ⟨⟨c, hc, rfl, rfl, rfl, hrc, hpar, hkid⟩, hk⟩ := h
    obtain ⟨f, rfl⟩ : ∃ g, f = g + 1 := ⟨f - 1, by simp only [depth] at hf; omega⟩
    have hi : ∀ q, allDataH f (c.kid q) m = .ok (allData (kids q).tree) := fun q => by
      rw [hkid q]; exact ih q (hk q) (by have := depth_kid a c.x c.y c.d kids q; omega)
    have h1 := hi .ne; have h2 := hi .nw; have h3 := hi .se; have h4 := hi .sw
    simp only [Cell.kid] at h1 h2 h3 h4
    simp only [root, allDataH, get_eq hc, obind_ok, h1, h2, h3, h4, tree, allData]

theorem insertAllH_spec (l : List (Pt V)) : ∀ {m : Mem V} {t : NT V}, Held m t →
    ∃ m' t', insertAllH l t.root m = .ok (t'.root, m') ∧ Step m t m' t' ∧ t'.tree = insertAll t.tree l := by
  induction l with
  | nil => intro m t h; exact ⟨m, t, rfl, h.step, rfl⟩
  | cons p l ih =>
    intro m t h
    obtain ⟨m1, r1, s1⟩ := insertH_spec p.x p.y p.d h
    obtain ⟨m2, t2, r2, s2, e2⟩ := ih s1.held
    refine ⟨m2, t2, ?_, s1.trans s2, ?_⟩
    · simp only [insertAllH, r1, obind_ok, r2]
    · rw [e2, ins_tree]; rfl

end Mdds.Quad
