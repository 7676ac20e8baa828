import Verif.Mtv.Props
import Verif.Mtv.IterSpec

/-!
# multi_type_vector iterators: lemmas

Calls keep the invariant, calls made in place keep the arrays, and the iterator functions on
iterators whose three positions agree.
-/

namespace Mdds.Mtv.Iter
open Mdds

variable {α : Type} [DecidableEq α]

/-! ### Calls keep the invariant -/

/-- A call with defined behaviour leads from a well-formed state to a well-formed state. -/
theorem wf_call {s s' : St α} (h : WF Weak s) (c : Call α) (hd : c.Defined (contents s)) {r : Ret α}
    (hr : c.run s = .ok (r, s')) : WF Weak s' := by
  have := call_spec_wf h c hd
  split at this
  · obtain ⟨r', s1, h1, h2, -⟩ := this
    rw [hr] at h1; cases h1
    exact h2
  · rw [hr] at this; cases this

/-! ### Hints -/

omit [DecidableEq α] in
theorem withAt_plain (f : Call α) (h : At) : (f.withAt h).plain = f.plain := by cases f <;> rfl

omit [DecidableEq α] in
theorem withAt_none (f : Call α) : f.withAt none = f.plain := by cases f <;> rfl

/-- Whatever the hint, the call does what the call without a hint does. -/
theorem withAt_run {s : St α} (hs : WF Weak s) (f : Call α) (h : At) (hh : h ≠ none → contents s ≠ []) :
    (f.withAt h).run s = f.plain.run s := by
  rcases h with _ | h
  · rw [withAt_none]
  · rw [hint_wf hs (hh (by simp)), withAt_plain]

theorem position_run {s : St α} (hs : WF Weak s) (h : At) (hh : h ≠ none → contents s ≠ []) (pos : Nat) :
    Mtv.position h pos s = Mtv.position none pos s := by
  rcases h with _ | h
  · rfl
  · exact hint_position_wf hs (hh (by simp)) _ _

/-! ### Calls in place -/

omit [DecidableEq α] in
theorem inPlace_plain (s : St α) (f : Call α) : inPlace s f.plain = inPlace s f := by cases f <;> rfl

/-- `set` of a value of the type the cell has keeps every block: place, size, type and
address. -/
theorem set_inPlace {s s' : St α} (hw : WF Weak s) {pos : Nat} {ty : Ty} {x : α} {r : Ret α}
    (ht : typeAt (contents s) pos = some ty) (hr : (Call.set none pos ty x).run s = .ok (r, s')) :
    s'.blocks.map Blk.info = s.blocks.map Blk.info := by
  have hp : pos < s.cur := by
    rw [← cells_length hw, ← contents_eq]
    by_contra hc
    simp [typeAt, List.getElem?_eq_none (by omega : (contents s).length ≤ pos)] at ht
  obtain ⟨i, hi, -⟩ := unwrap hr
  obtain ⟨pre, b, post, a, e, rfl, ha, hl, hn⟩ := lookup_in hw none hp
  simp only [set, bind_apply, hl, obind_ok, nBlocks_ap, if_neg hn] at hi
  have hb := cell_at hw e ha
  rw [← contents_eq] at hb
  obtain ⟨ok, -, hpos⟩ := ok_of_split hw e
  rcases hb with ⟨-, hb⟩ | ⟨d, v, hd, hv, hb⟩
  · simp [typeAt, hb] at ht
  · simp [typeAt, hb] at ht
    rcases s with ⟨bs, c, fr, ev, nx⟩
    simp only at e
    subst e
    rcases b with ⟨p, n, d'⟩
    simp only at hd hpos
    subst hd hpos
    rcases d with ⟨id, t, vals⟩
    simp only at ht hv
    subst ht
    have hva := (List.getElem?_eq_some_iff.1 hv).1
    simp [setImpl, mev, show a + 1 ≤ vals.length from hva] at hi
    obtain ⟨-, rfl⟩ := hi
    simp [Blk.info, Blk.ty]

/-- `push_back` of a value of the type of the last block keeps every block except that the last
one is one longer. -/
theorem push_inPlace {s s' : St α} {ty : Ty} {x : α} {r : Ret α}
    (ht : (s.blocks.getLast?.bind Blk.ty) = some ty) (hr : (Call.pushBack ty x).run s = .ok (r, s')) :
    ∃ pre b, s.blocks.map Blk.info = pre ++ [b] ∧ s'.blocks.map Blk.info = pre ++ [{ b with size := b.size + 1 }] := by
  obtain ⟨i, hi, -⟩ := unwrap hr
  rcases s with ⟨bs, c, fr, ev, nx⟩
  rcases List.eq_nil_or_concat bs with rfl | ⟨pre, ⟨p, n, d⟩, rfl⟩
  · simp at ht
  · rcases d with _ | ⟨id, t, vals⟩
    · simp [Blk.ty] at ht
    · simp [Blk.ty] at ht
      subst ht
      simp [pushBack, mev, Blk.ty] at hi
      obtain ⟨-, rfl⟩ := hi
      exact ⟨pre.map Blk.info, ⟨some t, p, n, some id⟩, by simp [Blk.info, Blk.ty], by simp [Blk.info, Blk.ty]⟩

/-- A call in place keeps the number of blocks. -/
theorem inPlace_length {s s' : St α} (hs : WF Weak s) {f : Call α} {r : Ret α} (hi : inPlace s f = true)
    (hr : f.plain.run s = .ok (r, s')) : s'.blocks.length = s.blocks.length := by
  cases f <;> simp [inPlace] at hi
  · have := congrArg List.length (set_inPlace hs hi hr)
    simpa using this
  · obtain ⟨pre, b, h1, h2⟩ := push_inPlace hi hr
    have h1 := congrArg List.length h1
    have h2 := congrArg List.length h2
    simp at h1 h2
    omega

end Mdds.Mtv.Iter
