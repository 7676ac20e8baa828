import Verif.Mtv.SwapLemmas
/-!
Range `swap` when the range lies within one block of each container.
-/
namespace Mdds.Mtv
open Mdds

set_option linter.unusedSimpArgs false
set_option linter.unusedVariables false
set_option linter.unusedSectionVars false

variable {α : Type} [DecidableEq α]

/-- The cells right before and right after the range are both of type `ty`. -/
def Between (L : List (Option (Ty × α))) (d n : Nat) (ty : Ty) : Prop :=
  0 < d ∧ tyAt L (d - 1) = some ty ∧ tyAt L (d + n) = some ty

theorem between_blocks {S : Option Ty → Prop} {q post : List (Blk α)} {x b z : Blk α} {s : St α}
    (e : s.blocks = q ++ x :: b :: z :: post) (h : WF S s) (ty : Ty) (h1 : x.ty = some ty) (h2 : z.ty = some ty) :
    Between (cells s.blocks) (total q + x.size) b.size ty := by
  have e1 : s.blocks = (q ++ [x]) ++ b :: (z :: post) := by rw [e]; simp
  have e2 : s.blocks = (q ++ [x, b]) ++ z :: post := by rw [e]; simp
  obtain ⟨ox, lx, _⟩ := ok_of_split h e
  obtain ⟨oz, lz, _⟩ := ok_of_split h e2
  have hx : 0 < x.size := ox.1
  have hz : 0 < z.size := oz.1
  refine ⟨by omega, ?_, ?_⟩
  · rw [e, cells_append, cells_cons, tyAt_block ox (by omega) (by omega)]; exact h1
  · rw [e2, cells_append, cells_cons, tyAt_block oz (by rw [lz]; simp; omega) (by rw [lz]; simp; omega)]; exact h2

/-- Turn a branch result into the spliced form. -/
macro "fit2" h:term:max P:term:max M:term:max R:term:max : tactic => `(tactic|
  (refine Runs.imp $h (fun r s' hh => ⟨(hh.1.mono (by first | exact id | exact fun _ => trivial | assumption) id).cast
      (splice_mk $P $M $R ?_ ?_ ?_ ?_), hh.2⟩)
   · simp
   · simp [*]
   · simp [*]
   · simp))

theorem exchangeOne_ok {S : Option Ty → Prop} (hS : ∀ o, S o → o ≠ none) {t : St α} (ht : WF S t)
    {pre post : List (Blk α)} {p i : Nat} {u ty : Ty} {va vm vb : List α} {y v : α} {vs : List α}
    (e : t.blocks = pre ++ ⟨p, va.length + (vm.length + 1 + vb.length), some ⟨i, u, va ++ (y :: (vm ++ vb))⟩⟩ :: post)
    (hty : u ≠ ty) (hm : vs.length = vm.length) :
    Runs (exchangeOne ty (v :: vs) pre.length va.length (vm.length + 1) t) (fun r t' =>
      Eff S (ty.managed = true → ¬ Between (cells t.blocks) (total pre + va.length) (vm.length + 1) ty) True t t'
        (splice (cells t.blocks) (total pre + va.length) (vm.length + 1) ((v :: vs).map (fun v => some (ty, v))))
        ((v :: vs).map (fun v => (ty, v))) ((y :: vm).map (fun v => (u, v)))
      ∧ r.ty = u ∧ r.vals = y :: vm) := by
  obtain ⟨ok, hpl, hp⟩ := ok_of_split ht e
  have hb := e
  rcases t with ⟨bs, c, fr, ev, nx⟩
  simp only at e
  subst e
  rcases va with _ | ⟨v0, va⟩
  · rcases vb with _ | ⟨w, vb⟩
    · simp only [List.append_nil, List.nil_append, List.length_nil, Nat.zero_add, Nat.add_zero] at *
      by_cases hbt : ((∃ q p n i v, pre = q ++ [⟨p, n, some ⟨i, ty, v⟩⟩]) ∧ (∃ q p n i v, post = ⟨p, n, some ⟨i, ty, v⟩⟩ :: q))
      · obtain ⟨⟨q, p1, n1, i1, v1, rfl⟩, ⟨q', p2, n2, i2, v2, rfl⟩⟩ := hbt
        have hB := between_blocks (q := q) (x := ⟨p1, n1, some ⟨i1, ty, v1⟩⟩) (b := ⟨p, vm.length + 1, some ⟨i, u, y :: vm⟩⟩)
          (z := ⟨p2, n2, some ⟨i2, ty, v2⟩⟩) (post := q') (s := ⟨q ++ [⟨p1, n1, some ⟨i1, ty, v1⟩⟩] ++ ⟨p, vm.length + 1, some ⟨i, u, y :: vm⟩⟩ ::
          ⟨p2, n2, some ⟨i2, ty, v2⟩⟩ :: q', c, fr, ev, nx⟩) (by simp) ht ty rfl rfl
        have h1 := ex_all_between S hS q q' p i _ u y vm ty v vs c fr ev nx
          ⟨q ++ [⟨p1, n1, some ⟨i1, ty, v1⟩⟩] ++ ⟨p, vm.length + 1, some ⟨i, u, y :: vm⟩⟩ ::
          ⟨p2, n2, some ⟨i2, ty, v2⟩⟩ :: q', c, fr, ev, nx⟩ p1 n1 i1 v1 p2 n2 i2 v2 hty hm rfl (by simp) ht
        have hv1 : v1.length = n1 := by
          have := ht.tile
          simp at this
          exact this.2.2.1.2
        have hx : (ty.managed = true → ¬ Between (cells (q ++ [⟨p1, n1, some ⟨i1, ty, v1⟩⟩] ++ ⟨p, vm.length + 1, some ⟨i, u, y :: vm⟩⟩ ::
          ⟨p2, n2, some ⟨i2, ty, v2⟩⟩ :: q')) (total (q ++ [⟨p1, n1, some ⟨i1, ty, v1⟩⟩])) (vm.length + 1) ty) → ty.managed = false := by
          intro hn
          cases hty : ty.managed with
          | false => rfl
          | true => exact absurd (by simpa using hB) (hn hty)
        have e0 : (q ++ [(⟨p1, n1, some ⟨i1, ty, v1⟩⟩ : Blk α)]).length = q.length + 1 := by simp
        rw [e0]
        refine Runs.imp h1 (fun r s' hh => ⟨(hh.1.mono hx id).cast
          (splice_mk (cells q ++ v1.map (fun v => some (ty, v))) ((y :: vm).map (fun v => some (u, v)))
            (v2.map (fun v => some (ty, v)) ++ cells q') ?_ ?_ ?_ ?_), hh.2⟩)
        · simp
        · simp [hv1]; simpa [hv1] using hpl
        · simp
        · simp
      · have h1 := ex_all S hS pre post p i _ u y vm ty v vs c fr ev nx _ hty hm rfl hbt rfl ht
        fit2 h1 (cells pre) ((y :: vm).map (fun v => some (u, v))) (cells post)
    · simp only [List.nil_append, List.length_nil, Nat.zero_add, Nat.add_zero] at *
      have h1 := ex_top S hS pre post p i _ u y vm (w :: vb) ty v vs c fr ev nx _ hty hm (by simp) rfl rfl ht
      fit2 h1 (cells pre) ((y :: vm).map (fun v => some (u, v))) ((w :: vb).map (fun v => some (u, v)) ++ cells post)
  · rcases vb with _ | ⟨w, vb⟩
    · simp only [List.append_nil, List.length_nil, Nat.zero_add, Nat.add_zero] at *
      have h1 := ex_bottom S hS pre post p i _ u y (v0 :: va) vm ty v vs c fr ev nx _ hty hm (by simp) rfl rfl ht
      fit2 h1 (cells pre ++ (v0 :: va).map (fun v => some (u, v))) ((y :: vm).map (fun v => some (u, v))) (cells post)
    · have h1 := ex_mid S hS pre post p i _ u y (v0 :: va) vm (w :: vb) ty v vs c fr ev nx _ hty hm (by simp) (by simp) rfl rfl ht
      fit2 h1 (cells pre ++ (v0 :: va).map (fun v => some (u, v))) ((y :: vm).map (fun v => some (u, v))) ((w :: vb).map (fun v => some (u, v)) ++ cells post)

theorem takeIn_ok {S : Option Ty → Prop} (hS : ∀ o, S o → o ≠ none) {s : St α} (hs : WF S s)
    {pre post : List (Blk α)} {p i k : Nat} {u ty : Ty} {va vm vb : List α} {y v : α} {vs : List α}
    (e : s.blocks = pre ++ ⟨p, va.length + (vm.length + 1 + vb.length), some ⟨i, u, va ++ (y :: (vm ++ vb))⟩⟩ :: post)
    (hty : u ≠ ty) (hm : vs.length = vm.length) (hne : ¬ (va = [] ∧ vb = [])) :
    Runs (takeIn pre.length va.length (vm.length + 1) vb.length ⟨k, ty, v :: vs⟩ s) (fun _ s' =>
      Eff S True True s s'
        (splice (cells s.blocks) (total pre + va.length) (vm.length + 1) ((v :: vs).map (fun v => some (ty, v))))
        ((v :: vs).map (fun v => (ty, v))) ((y :: vm).map (fun v => (u, v)))) := by
  obtain ⟨ok, hpl, hp⟩ := ok_of_split hs e
  rcases s with ⟨bs, c, fr, ev, nx⟩
  simp only at e
  subst e
  rcases va with _ | ⟨v0, va⟩
  · rcases vb with _ | ⟨w, vb⟩
    · exact absurd ⟨rfl, rfl⟩ hne
    · simp only [List.nil_append, List.length_nil, Nat.zero_add, Nat.add_zero] at *
      have h1 := take_top S hS pre post p i _ u y vm (w :: vb) ty k v vs c fr ev nx _ hty hm (by simp) rfl rfl hs
      refine Runs.imp h1 (fun r s' hh => hh.cast (splice_mk (cells pre) ((y :: vm).map (fun v => some (u, v)))
        ((w :: vb).map (fun v => some (u, v)) ++ cells post) ?_ ?_ ?_ ?_)) <;> simp [hpl]
  · rcases vb with _ | ⟨w, vb⟩
    · simp only [List.append_nil, List.length_nil, Nat.zero_add, Nat.add_zero] at *
      have h1 := take_bottom S hS pre post p i _ u y (v0 :: va) vm ty k v vs c fr ev nx _ hty hm (by simp) rfl rfl hs
      refine Runs.imp h1 (fun r s' hh => hh.cast (splice_mk (cells pre ++ (v0 :: va).map (fun v => some (u, v)))
        ((y :: vm).map (fun v => some (u, v))) (cells post) ?_ ?_ ?_ ?_)) <;> simp [hpl]
    · have h1 := take_mid S hS pre post p i _ u y (v0 :: va) vm (w :: vb) ty k v vs c fr ev nx _ hty hm (by simp) (by simp) rfl rfl hs
      refine Runs.imp h1 (fun r s' hh => hh.cast (splice_mk (cells pre ++ (v0 :: va).map (fun v => some (u, v)))
        ((y :: vm).map (fun v => some (u, v))) ((w :: vb).map (fun v => some (u, v)) ++ cells post) ?_ ?_ ?_ ?_)) <;> simp [hpl]

theorem takeWhole_ok {S : Option Ty → Prop} {s : St α} (hs : WF S s)
    {pre post : List (Blk α)} {p i n : Nat} {u : Ty} {ws : List α} (r : EB α)
    (e : s.blocks = pre ++ ⟨p, n, some ⟨i, u, ws⟩⟩ :: post) (hm : r.vals.length = n) :
    Runs ((do
      receive pre.length r
      let _ ← mergeWithAdjacent pre.length
      M.pure () : M α Unit) ⟨s.blocks, s.cur, s.freed, s.evs ++ [.rel i], s.next⟩) (fun _ s' =>
      Eff S True True s s' (splice (cells s.blocks) (total pre) n (r.vals.map (fun v => some (r.ty, v))))
        (r.vals.map (fun v => (r.ty, v))) (ws.map (fun v => (u, v)))) := by
  obtain ⟨ok, hpl, hp⟩ := ok_of_split hs e
  obtain ⟨q1, q2, q3, q4, q5, q6, q7⟩ := src_split hs e
  have hws : ws.length = n := ok.2 _ rfl
  have hn : 0 < n := ok.1
  rcases s with ⟨bs, c, fr, ev, nx⟩
  simp only at e hp q4 q5
  subst e
  rcases r with ⟨k, ty, vs⟩
  simp only at hm
  have hrec : receive pre.length ⟨k, ty, vs⟩ ⟨pre ++ ⟨p, n, some ⟨i, u, ws⟩⟩ :: post, c, fr, ev ++ [.rel i], nx⟩ =
      .ok ((), ⟨pre ++ ⟨p, n, some ⟨k, ty, vs⟩⟩ :: post, c, fr, ev ++ [.rel i] ++ [.acq k], nx⟩) := by
    simp [mev]
  simp only [bind_apply, hrec, obind_ok]
  have hmr := merge_ok S [] pre ⟨p, n, some ⟨k, ty, vs⟩⟩ post ⟨pre ++ ⟨p, n, some ⟨k, ty, vs⟩⟩ :: post, c, fr,
      ev ++ [.rel i] ++ [.acq k], nx⟩ (.inl rfl) (by simp)
      (by
        rw [tile_append]
        exact ⟨q3, by simp [hp], ⟨hn, by simp [hm]⟩, tile_eq q4 (by simp)⟩)
      (by simp only [total_append, total_cons]; simpa using q5) q1 q2
  simp only [List.length_nil, Nat.zero_add] at hmr
  refine Runs.bind hmr ?_
  rintro o s4 hm4
  refine ⟨(), s4, rfl, ?_⟩
  obtain ⟨N, hN, hsep, _⟩ := hm4.keep
  have h4 := hm4.eff
  refine ⟨h4.tile, h4.cur, by rw [hN]; simpa using hsep, ?_, ?_, ?_, ?_⟩
  · rw [h4.cells]
    exact splice_mk (cells pre) (ws.map (fun v => some (u, v))) (cells post) (by simp) hpl (by simp [hws]) (by simp)
  · intro _ z hz
    have := h4.led trivial z hz
    simp [List.count_append, count_map_some] at this ⊢
    omega
  · have := h4.evn
    simp at this ⊢
    omega
  · intro _ z
    have := h4.ev trivial z
    simp [List.count_append, List.count_cons] at this ⊢
    omega

/-! ### Both containers -/

theorem onSrc_seq {β γ : Type} (x : M α β) (f : β → M α γ) :
    onSrc (x >>= f) = (onSrc x >>= fun b => onSrc (f b)) := by
  funext s t
  simp only [onSrc, bind_apply, bind2_apply]
  rcases x s with ⟨b, s'⟩ | ⟨e, s'⟩ | _ <;> rfl
theorem onSrc_pure {β : Type} (b : β) : onSrc (M.pure b : M α β) = M2.pure b := rfl
theorem onDst_seq {β γ : Type} (x : M α β) (f : β → M α γ) :
    onDst (x >>= f) = (onDst x >>= fun b => onDst (f b)) := by
  funext s t
  simp only [onDst, bind_apply, bind2_apply]
  rcases x t with ⟨b, s'⟩ | ⟨e, s'⟩ | _ <;> rfl

theorem Runs2.flip {β : Type} {x : M2 α β} {s t : St α} {P : β → St α → St α → Prop}
    (h : Runs2 (x t s) (fun r t' s' => P r s' t')) : Runs2 (flipM x s t) P := by
  obtain ⟨r, t', s', e, hp⟩ := h
  exact ⟨r, s', t', by simp [flipM, e], hp⟩

/-- The range that `swap` of `n` elements at `a` and `d` exchanges is one run of a managed type in
the one container, one run of another type in the other, and there it lies between two elements
of the first type. -/
def DoubleDelete (L L' : List (Option (Ty × α))) (a d n : Nat) : Prop :=
  ∃ ty u, ty.managed = true ∧ u ≠ ty ∧ (∀ i < n, tyAt L (a + i) = some ty) ∧ (∀ i < n, tyAt L' (d + i) = some u) ∧
    Between L' d n ty

/-- The ranges changed places. -/
structure Swapped (S : Option Ty → Prop) (lp : Prop) (s t s' t' : St α) (a d n : Nat)
    (X Y : List (Option (Ty × α))) : Prop where
  src : Eff S lp True s s' (splice (cells s.blocks) a n Y) (Y.filterMap id) (X.filterMap id)
  dst : Eff S lp True t t' (splice (cells t.blocks) d n X) (X.filterMap id) (Y.filterMap id)

theorem Swapped.flip {S : Option Ty → Prop} {lp : Prop} {s t s' t' : St α} {a d n : Nat} {X Y}
    (h : Swapped S lp s t s' t' a d n X Y) : Swapped S lp t s t' s' d a n Y X := ⟨h.dst, h.src⟩
theorem Swapped.mono {S : Option Ty → Prop} {lp lp' : Prop} {s t s' t' : St α} {a d n : Nat} {X Y}
    (h : Swapped S lp s t s' t' a d n X Y) (hl : lp' → lp) : Swapped S lp' s t s' t' a d n X Y :=
  ⟨h.src.mono hl id, h.dst.mono hl id⟩

theorem splice_self {τ : Type} (L : List τ) (a n : Nat) : splice L a n ((L.drop a).take n) = L := by
  unfold splice
  rw [← List.drop_drop (i := n), List.take_append_drop, List.take_append_drop]

theorem Eff.refl' {S : Option Ty → Prop} {s : St α} (h : WF S s) : Eff S True True s s (Mtv.cells s.blocks) [] [] :=
  ⟨h.tile, h.cur, h.sep, rfl, fun _ _ _ => by simp, by omega, fun _ _ => by omega⟩

theorem none_range {S : Option Ty → Prop} {s : St α} (h : WF S s) {pre post : List (Blk α)} {p n : Nat}
    (e : s.blocks = pre ++ ⟨p, n, none⟩ :: post) {a m : Nat} (ha : a + m < n) :
    ((cells s.blocks).drop (total pre + a)).take (m + 1) = List.replicate (m + 1) none := by
  rw [mid_of h e ha]
  simp only [Blk.cells, List.drop_replicate, List.take_replicate]
  congr 1; omega

theorem filterMap_rep (n : Nat) : (List.replicate n (none : Option (Ty × α))).filterMap id = [] := by
  simp

theorem filterMap_map (ty : Ty) (vs : List α) :
    (vs.map (fun v => some (ty, v))).filterMap id = vs.map (fun v => (ty, v)) := by
  induction vs with
  | nil => rfl
  | cons v vs ih => simp [ih]

theorem some_range {S : Option Ty → Prop} {s : St α} (h : WF S s) {pre post : List (Blk α)} {p n i : Nat} {ty : Ty}
    {va vm vb : List α} {y : α}
    (e : s.blocks = pre ++ ⟨p, va.length + (vm.length + 1 + vb.length), some ⟨i, ty, va ++ (y :: (vm ++ vb))⟩⟩ :: post) :
    ((cells s.blocks).drop (total pre + va.length)).take (vm.length + 1) = (y :: vm).map (fun v => some (ty, v)) := by
  rw [mid_of h e (by simp; omega)]
  simp [Blk.cells, ← List.map_drop, ← List.map_take]

theorem tyAt_range {S : Option Ty → Prop} {s : St α} (h : WF S s) {pre post : List (Blk α)} {b : Blk α}
    (e : s.blocks = pre ++ b :: post) {a m : Nat} (ha : a + m < b.size) :
    ∀ i < m + 1, tyAt (cells s.blocks) (total pre + a + i) = b.ty := by
  intro i hi
  obtain ⟨ok, hpl, _⟩ := ok_of_split h e
  rw [e, cells_append, cells_cons, tyAt_block ok (by omega) (by omega)]

theorem replaceVals_eff {S : Option Ty → Prop} {s : St α} (h : WF S s) {pre post : List (Blk α)} {p i : Nat} {ty : Ty}
    {va vm vb : List α} {y : α} {v : α} {vs : List α} (hm : vs.length = vm.length)
    (e : s.blocks = pre ++ ⟨p, va.length + (vm.length + 1 + vb.length), some ⟨i, ty, va ++ (y :: (vm ++ vb))⟩⟩ :: post) :
    Eff S True True s ⟨pre ++ ⟨p, va.length + (vm.length + 1 + vb.length), some ⟨i, ty, va ++ (v :: (vs ++ vb))⟩⟩ :: post,
      s.cur, s.freed, s.evs, s.next⟩
      (splice (Mtv.cells s.blocks) (total pre + va.length) (vm.length + 1) ((v :: vs).map (fun v => some (ty, v))))
      ((v :: vs).map (fun v => (ty, v))) ((y :: vm).map (fun v => (ty, v))) := by
  obtain ⟨ok, hpl, hp⟩ := ok_of_split h e
  have h1 := h.tile
  have h2 := h.cur
  have h3 := h.sep
  rw [e] at h1 h2 h3
  simp at h1 h2 h3
  refine ⟨?_, ?_, ?_, ?_, ?_, ?_, ?_⟩
  · simp; exact ⟨h1.1, h1.2.1, ⟨by omega, by omega⟩, tile_eq h1.2.2.2 (by omega)⟩
  · simp; omega
  · simpa using h3
  · exact splice_mk (Mtv.cells pre ++ va.map (fun v => some (ty, v))) ((y :: vm).map (fun v => some (ty, v)))
      (vb.map (fun v => some (ty, v)) ++ Mtv.cells post) (by rw [e]; simp) (by simp [hpl]) (by simp) (by simp)
  · intro _ z hz
    rw [e]
    simp [List.count_append, List.count_cons, count_map_some]; omega
  · rw [e]; simp
  · intro _ j
    rw [e]; simp [List.count_append]

theorem swapSingle_ok {S : Option Ty → Prop} (hS : ∀ o, S o → o ≠ none) {s t : St α} (hs : WF S s) (ht : WF S t)
    {pre post pre' post' : List (Blk α)} {b b' : Blk α} (e : s.blocks = pre ++ b :: post)
    (e' : t.blocks = pre' ++ b' :: post') {a d m : Nat} (ha : a + m < b.size) (hd : d + m < b'.size)
    (X Y : List (Option (Ty × α))) (hX : X = ((cells s.blocks).drop (total pre + a)).take (m + 1))
    (hY : Y = ((cells t.blocks).drop (total pre' + d)).take (m + 1)) :
    Runs2 (swapSingle (total pre + a) (total pre + a + m) (total pre' + d) pre.length pre'.length s t)
      (fun _ s' t' => Swapped S
        (¬ DoubleDelete (cells s.blocks) (cells t.blocks) (total pre + a) (total pre' + d) (m + 1))
        s t s' t' (total pre + a) (total pre' + d) (m + 1) X Y) := by
  obtain ⟨ok, hpl, hp⟩ := ok_of_split hs e
  obtain ⟨ok', hpl', hp'⟩ := ok_of_split ht e'
  have hlen : total pre + a + m - (total pre + a) + 1 = m + 1 := by omega
  have hoff : total pre + a - b.pos = a := by omega
  have hoff' : total pre' + d - b'.pos = d := by omega
  have hg : getB pre.length s = .ok (b, s) := by
    have : s = ⟨pre ++ b :: post, s.cur, s.freed, s.evs, s.next⟩ := by rw [← e]
    rw [this]; simp [mev]
  have hg' : getB pre'.length t = .ok (b', t) := by
    have : t = ⟨pre' ++ b' :: post', t.cur, t.freed, t.evs, t.next⟩ := by rw [← e']
    rw [this]; simp [mev]
  have ty1 := tyAt_range hs e ha
  have ty2 := tyAt_range ht e' hd
  unfold swapSingle
  simp only [hlen, bind2_apply, onSrc_ok hg, onDst_ok hg', bind2_ok, hoff, hoff']
  rcases cut_cases b a m ok ha with ⟨p, k, rfl⟩ | ⟨p, i, u, va, y, vm, vb, rfl, rfl, rfl⟩
  · have hXn : X = List.replicate (m + 1) none := by rw [hX, none_range hs e ha]
    rcases cut_cases b' d m ok' hd with ⟨p', k', rfl⟩ | ⟨p', i', u', va', y', vm', vb', rfl, rfl, rfl⟩
    · have hYn : Y = List.replicate (m + 1) none := by rw [hY, none_range ht e' hd]
      simp only [m2pure_apply, runs2_ok]
      refine Swapped.mono (lp := True) ⟨?_, ?_⟩ (fun _ => trivial)
      · rw [show Y = X by rw [hYn, hXn], hX, splice_self, ← hX, hXn, filterMap_rep]; exact Eff.refl' hs
      · rw [show X = Y by rw [hYn, hXn], hY, splice_self, ← hY, hYn, filterMap_rep]; exact Eff.refl' ht
    · have hde : total pre' + va'.length + (total pre + a + vm'.length) - (total pre + a) =
        total pre' + va'.length + vm'.length := by omega
      simp only [bind2_apply, hde]
      have hd' : total pre + a + (vm'.length + 1) ≤ s.cur := by
        have := (src_split hs e).2.2.2.2.1
        simp at ha this; omega
      have := transferSingle_ok hS ht hs e' hd hd' Y hY
      refine Runs2.bind (Runs2.flip (P := fun r s' t' => _) this) ?_
      rintro _ s' t' ⟨h1, h2, _⟩
      simp only [m2pure_apply, runs2_ok]
      refine Swapped.mono (lp := True) ⟨?_, ?_⟩ (fun _ => trivial)
      · have := h2.eff
        rw [hXn, filterMap_rep]; exact this
      · have := h1.eff
        rw [hXn, filterMap_rep]; exact this
  · have hXs := some_range hs (n := 0) e
    rw [← hX] at hXs
    rcases cut_cases b' d vm.length ok' hd with ⟨p', k', rfl⟩ | ⟨p', i', u', va', y', vm', vb', rfl, hmm, rfl⟩
    · have hYn : Y = List.replicate (vm.length + 1) none := by rw [hY, none_range ht e' hd]
      simp only [bind2_apply]
      have hd' : total pre' + d + (vm.length + 1) ≤ t.cur := by
        have := (src_split ht e').2.2.2.2.1
        simp at hd this; omega
      have := transferSingle_ok hS hs ht e ha hd' X hX
      refine Runs2.bind this ?_
      rintro _ s' t' ⟨h1, h2, _⟩
      simp only [m2pure_apply, runs2_ok]
      refine Swapped.mono (lp := True) ⟨?_, ?_⟩ (fun _ => trivial)
      · have := h1.eff
        rw [hYn, filterMap_rep]; exact this
      · have := h2.eff
        rw [hYn, filterMap_rep]; exact this
    · have hYs := some_range ht (n := 0) e'
      rw [hmm] at hY ha hX hd ty1 ty2
      rw [← hY] at hYs
      have hr : rangeOf pre.length va.length (vm.length + 1) u s = .ok (y :: vm, s) := by
        have : s = ⟨pre ++ ⟨p, va.length + (vm.length + 1 + vb.length), some ⟨i, u, va ++ y :: (vm ++ vb)⟩⟩ :: post,
          s.cur, s.freed, s.evs, s.next⟩ := by rw [← e]
        rw [this]; simp [mev]
      by_cases huu : u = u'
      · subst huu
        simp only [if_true]
        have hr' : rangeOf pre'.length va'.length (vm.length + 1) u t = .ok (y' :: vm', t) := by
          have : t = ⟨pre' ++ ⟨p', va'.length + (vm'.length + 1 + vb'.length), some ⟨i', u, va' ++ y' :: (vm' ++ vb')⟩⟩ :: post',
            t.cur, t.freed, t.evs, t.next⟩ := by rw [← e']
          rw [this, hmm]; simp [mev]
        have hset : setVals pre.length va.length u (y' :: vm') s = .ok ((), ⟨pre ++ ⟨p, va.length + (vm.length + 1 + vb.length),
            some ⟨i, u, va ++ y' :: (vm' ++ vb)⟩⟩ :: post, s.cur, s.freed, s.evs, s.next⟩) := by
          have : s = ⟨pre ++ ⟨p, va.length + (vm.length + 1 + vb.length), some ⟨i, u, va ++ y :: (vm ++ vb)⟩⟩ :: post,
            s.cur, s.freed, s.evs, s.next⟩ := by rw [← e]
          conv_lhs => rw [this]
          simp [mev, ← hmm]
        have hset' : setVals pre'.length va'.length u (y :: vm) t = .ok ((), ⟨pre' ++ ⟨p', va'.length + (vm'.length + 1 + vb'.length),
            some ⟨i', u, va' ++ y :: (vm ++ vb')⟩⟩ :: post', t.cur, t.freed, t.evs, t.next⟩) := by
          have : t = ⟨pre' ++ ⟨p', va'.length + (vm'.length + 1 + vb'.length), some ⟨i', u, va' ++ y' :: (vm' ++ vb')⟩⟩ :: post',
            t.cur, t.freed, t.evs, t.next⟩ := by rw [← e']
          conv_lhs => rw [this]
          simp [mev, hmm]
        simp only [bind2_apply, onSrc_ok hr, onDst_ok hr', bind2_ok, onSrc_ok hset, onDst_ok hset', runs2_ok]
        refine Swapped.mono (lp := True) ⟨?_, ?_⟩ (fun _ => trivial)
        · rw [hXs, hYs, filterMap_map, filterMap_map]
          exact replaceVals_eff hs hmm.symm e
        · rw [hXs, hYs, filterMap_map, filterMap_map, hmm]
          exact replaceVals_eff ht hmm e'
      · have huu' : ¬ u' = u := fun h => huu h.symm
        have hlp : ¬ DoubleDelete (cells s.blocks) (cells t.blocks) (total pre + va.length) (total pre' + va'.length)
            (vm'.length + 1) → (u.managed = true → ¬ Between (cells t.blocks) (total pre' + va'.length) (vm'.length + 1) u) := by
          intro hn hman hb
          exact hn ⟨u, u', hman, huu', ty1, ty2, hb⟩
        have htail : va.length + (vm.length + 1 + vb.length) - va.length - (vm.length + 1) = vb.length := by omega
        have hex := exchangeOne_ok (ty := u) (v := y) (vs := vm) hS ht e' huu' hmm
        rw [← hmm] at hex hlp
        simp only [if_neg huu, bind2_apply, onSrc_ok hr, bind2_ok, htail]
        by_cases hw : va = [] ∧ vb = []
        · obtain ⟨rfl, rfl⟩ := hw
          simp only [List.nil_append, List.append_nil, List.length_nil, Nat.zero_add, Nat.add_zero, true_and, if_true,
            and_self] at *
          have hrel : released (⟨i, u, y :: vm⟩ : EB α) s = .ok ((), ⟨s.blocks, s.cur, s.freed, s.evs ++ [.rel i], s.next⟩) := rfl
          simp only [bind2_apply, onSrc_ok hrel, bind2_ok]
          refine Runs2.bind (Runs.dst hex _) ?_
          rintro r s1 t1 ⟨⟨h1, h2, h3⟩, rfl⟩
          have htw := takeWhole_ok hs r e (by rw [h3]; simp [hmm])
          have hgo := Runs.src htw t1
          simp only [onSrc_seq, onSrc_pure, bind2_apply] at hgo
          refine Runs2.imp hgo ?_
          rintro _ s' t' ⟨h4, rfl⟩
          rw [h2, h3] at h4
          refine ⟨?_, ?_⟩
          · rw [hXs, hYs, filterMap_map, filterMap_map]
            exact h4.mono (fun _ => trivial) id
          · rw [hXs, hYs, filterMap_map, filterMap_map]
            exact h1.mono hlp id
        · have hw' : ¬ (va.length = 0 ∧ vb.length = 0) := by simpa using hw
          simp only [if_neg hw', bind2_apply]
          refine Runs2.bind (Runs.dst hex _) ?_
          rintro r s1 t1 ⟨⟨h1, h2, h3⟩, rfl⟩
          rcases r with ⟨k, ty, vs⟩
          simp only at h2 h3
          subst h2 h3
          refine Runs2.imp (Runs.src (takeIn_ok hS hs e huu hmm.symm hw) t1) ?_
          rintro _ s' t' ⟨h4, rfl⟩
          refine ⟨?_, ?_⟩
          · rw [hXs, hYs, filterMap_map, filterMap_map]
            exact h4.mono (fun _ => trivial) id
          · rw [hXs, hYs, filterMap_map, filterMap_map]
            exact h1.mono hlp id

end Mdds.Mtv
