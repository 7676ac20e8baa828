import Verif.Packed.Cut
import Verif.Packed.Results

/-!
# C63: `load_state` on a stream that was cut off

A state is written with `save_state` and the stream ends before its last byte: the disk was full, the writer stopped, or
the transfer was interrupted.  A reader expects `load_state` to throw, wherever the cut is.
-/
namespace Mdds.Packed
open Mdds.Trie

variable {V : Type}

/-! ### Complete streams -/

theorem loadCellsT_eq (pvt : Nat) (b : Bv) (s : List Nat) (h : loadCells pvt s ≠ .ub) :
    loadCellsT pvt b s = ofRead (loadCells pvt s) := by
  unfold loadCells at h ⊢
  unfold loadCellsT
  cases e1 : rdInt 1 s with
  | ub => rw [e1] at h; exact absurd rfl h
  | err e => exact absurd e1 rdInt_noerr
  | ok x =>
  obtain ⟨a1, a2⟩ := rdInt_isRead e1 b
  rw [e1, obind_ok] at h
  simp only [a1, a2, obind_ok, LRes.bind]
  by_cases hx : x.1 ≠ 255
  · simp only [if_pos hx]; rfl
  rw [if_neg hx] at h
  simp only [if_neg hx]
  cases e2 : rdInt 1 x.2 with
  | ub => rw [e2] at h; exact absurd rfl h
  | err e => exact absurd e2 rdInt_noerr
  | ok y =>
  obtain ⟨b1, b2⟩ := rdInt_isRead e2 (isRead 1 b s).1
  rw [e2, obind_ok] at h
  simp only [b1, b2, obind_ok]
  by_cases hy : y.1 ≠ pvt
  · simp only [if_pos hy]; rfl
  rw [if_neg hy] at h
  simp only [if_neg hy]
  cases e3 : rdInt 8 y.2 with
  | ub => rw [e3] at h; exact absurd rfl h
  | err e => exact absurd e3 rdInt_noerr
  | ok z =>
  obtain ⟨c1, c2⟩ := rdInt_isRead e3 (isRead 1 (isRead 1 b s).1 x.2).1
  rw [e3, obind_ok] at h
  simp only [c1, c2, obind_ok]
  cases e4 : rdElems pvt z.1 z.2 with
  | ub => rw [e4] at h; exact absurd rfl h
  | err e =>
    exfalso
    have : ∀ n s, rdElems pvt n s ≠ .err e := by
      intro n
      induction n with
      | zero => intro s h; cases h
      | succ n ih =>
        intro s
        unfold rdElems
        cases e0 : rdInt pvt s with
        | ub => intro h; cases h
        | err e => exact absurd e0 rdInt_noerr
        | ok z =>
          rw [obind_ok]
          cases e1 : rdElems pvt n z.2 with
          | ub => intro h; cases h
          | err e' => intro h; cases h; exact ih _ e1
          | ok y => intro h; cases h
    exact this _ _ e4
  | ok cs =>
  obtain ⟨b', hb⟩ := cellsT_eq pvt z.1 (isRead 8 (isRead 1 (isRead 1 b s).1 x.2).1 y.2).1 z.2 e4
  rw [e4, obind_ok] at h
  simp only [hb, obind_ok]
  cases e5 : rdInt 1 cs.2 with
  | ub => rw [e5] at h; exact absurd rfl h
  | err e => exact absurd e5 rdInt_noerr
  | ok w =>
  obtain ⟨d1, d2⟩ := rdInt_isRead e5 b'
  rw [e5, obind_ok] at h
  simp only [d1, d2, obind_ok]
  by_cases hw : w.1 ≠ 255
  · simp only [if_pos hw]; rfl
  rw [if_neg hw] at h
  simp only [if_neg hw]
  cases e6 : walkBuffer cs.1 with
  | ub => rw [e6] at h; exact absurd rfl h
  | err e =>
    exfalso
    have h1 : ∀ pk i n, rdSeq pk i n ≠ .err e := by
      intro pk i n
      induction n generalizing i with
      | zero => intro h; cases h
      | succ n ih =>
        unfold rdSeq
        rcases rd_total pk i with ⟨v, hv⟩ | hv
        · rw [hv, obind_ok]
          cases e1 : rdSeq pk (i + 1) n with
          | ub => intro h; cases h
          | err e' => intro h; cases h; exact ih _ e1
          | ok y => intro h; cases h
        · rw [hv]; intro h; cases h
    have h2 : ∀ pk f i, walkNodes pk f i ≠ .err e := by
      intro pk f
      induction f with
      | zero => intro i h; cases h
      | succ f ih =>
        intro i
        unfold walkNodes
        split
        · rcases rd_total pk i with ⟨v, hv⟩ | hv
          · rw [hv, obind_ok]
            rcases rd_total pk (i + 1) with ⟨v', hv'⟩ | hv'
            · rw [hv', obind_ok]
              cases e1 : rdSeq pk (i + 2) (2 * (v' / 2)) with
              | ub => intro h; cases h
              | err e' => intro h; cases h; exact h1 _ _ _ e1
              | ok y =>
                rw [obind_ok]
                cases e2 : walkNodes pk f (i + 2 + 2 * (v' / 2)) with
                | ub => intro h; cases h
                | err e' => intro h; cases h; exact ih _ e2
                | ok y => intro h; cases h
            · rw [hv']; intro h; cases h
          · rw [hv]; intro h; cases h
        · intro h; cases h
    unfold walkBuffer at e6
    rcases rd_total cs.1 0 with ⟨v, hv⟩ | hv
    · rw [hv, obind_ok] at e6
      cases e2 : walkNodes cs.1 (cs.1.length + 1) 1 with
      | ub => rw [e2] at e6; cases e6
      | err e' => rw [e2] at e6; cases e6; exact h2 _ _ _ e2
      | ok y => rw [e2] at e6; cases e6
    · rw [hv] at e6; cases e6
  | ok _ => rfl

/-- Whatever `State.lean` says about a stream that does not end too early holds here: same contents, same exception, same
rest of the stream. -/
theorem loadT_eq (f : Ser V) (pvt : Nat) (q : Packed V) (s : List Nat) (h : (load f pvt q s).2 ≠ .ub) :
    loadT f pvt q s = ((load f pvt q s).1, ofRead (load f pvt q s).2) := by
  unfold load at h ⊢
  unfold loadT
  cases e1 : rdInt 2 s with
  | ub => rw [e1] at h; exact absurd rfl h
  | err e => exact absurd e1 rdInt_noerr
  | ok x =>
  obtain ⟨a1, a2⟩ := rdInt_isRead e1 Bv.fresh
  rw [e1] at h
  simp only [a1, a2, obind_ok, LRes.bind] at h ⊢
  by_cases hx : decide (x.1 % 2 = 1) ≠ f.varSize
  · simp only [if_pos hx]; rfl
  simp only [if_neg hx] at h ⊢
  cases e2 : rdInt 4 x.2 with
  | ub => rw [e2] at h; exact absurd rfl h
  | err e => exact absurd e2 rdInt_noerr
  | ok n =>
  obtain ⟨b1, b2⟩ := rdInt_isRead e2 (isRead 2 Bv.fresh s).1
  rw [e2] at h
  simp only [b1, b2, obind_ok] at h ⊢
  cases e3 : readVals f n.1 n.2 with
  | ub => rw [e3] at h; exact absurd rfl h
  | err e => rw [readValsT_eq f n.1 n.2 (by rw [e3]; simp), e3]; rfl
  | ok vs =>
    rw [e3] at h
    rw [readValsT_eq f n.1 n.2 (by rw [e3]; simp), e3]
    show (match loadCellsT pvt _ vs.2 with | .ok cs => _ | .err e => _ | .ub => _ | .hang => _) = _
    cases e4 : loadCells pvt vs.2 with
    | ub => simp only [e4] at h; exact absurd rfl h
    | err e => rw [loadCellsT_eq pvt _ vs.2 (by rw [e4]; simp), e4]; simp only [e4, ofRead]
    | ok cs => rw [loadCellsT_eq pvt _ vs.2 (by rw [e4]; simp), e4]; simp only [e4, ofRead]

/-! ### Reads at the end of the stream -/

theorem short_ub {n : Nat} {b : Bv} {s : List Nat} {i : Nat} (h1 : s.length ≤ i) (h2 : i < n) (hb : b[i]? = some none) :
    (isRead n b s).1.num n = .ub := by
  unfold Bv.num isRead
  have : none ∈ (List.map some (List.take n s) ++ List.drop (min n s.length) b).take n := by
    refine List.mem_of_getElem? (i := i) ?_
    rw [List.getElem?_take_of_lt h2, List.getElem?_append_right (by simp; omega), List.getElem?_drop]
    have : min n s.length + (i - (List.map some (List.take n s)).length) = i := by simp; omega
    rw [this, hb]
  rw [known_none this]

theorem known_read (n : Nat) (l s : List Nat) :
    (isRead n (l.map some) s).1 = ((s.take n) ++ l.drop (min n s.length)).map some := by
  simp [isRead]

theorem num_known {n : Nat} (l : List Nat) : Bv.num n (l.map some) = .ok (unle (l.take n)) := by
  unfold Bv.num
  rw [← List.map_take, known_some]

/-- The cells of a stream that ends within them: the last byte patterns repeat. -/
theorem cellsT_known (pvt : Nat) (hp : 0 < pvt) : ∀ (n : Nat) (l s : List Nat), pvt ≤ l.length → s.length ≤ pvt * n →
    ∃ cs l', cellsT pvt n (l.map some) s = .ok (cs, l'.map some, []) ∧ l' ≠ [] ∧
      l'.head? = if s = [] then l.head? else s[pvt * ((s.length - 1) / pvt)]?
  | 0, l, s, hl, hs => by
    have : s = [] := List.length_eq_zero_iff.1 (by omega)
    subst this
    exact ⟨[], l, rfl, fun e => by subst e; simp at hl; omega, by simp⟩
  | n + 1, l, s, hl, hs => by
    obtain ⟨cs, l', h1, h2, h3⟩ := cellsT_known pvt hp n (s.take pvt ++ l.drop (min pvt s.length)) (s.drop pvt)
      (by simp; omega) (by rw [Nat.mul_succ] at hs; simp; omega)
    refine ⟨unle ((s.take pvt ++ l.drop (min pvt s.length)).take pvt) :: cs, l', ?_, h2, ?_⟩
    · unfold cellsT
      simp only [known_read, isRead_snd, num_known, LRes.bind, h1]
    · rw [h3]
      by_cases e : s = []
      · subst e; simp
      · rw [if_neg e]
        have hpos : 0 < s.length := List.length_pos_iff.2 e
        by_cases e2 : s.drop pvt = []
        · rw [if_pos e2]
          have hle : s.length ≤ pvt := by simpa using e2
          have : (s.length - 1) / pvt = 0 := Nat.div_eq_of_lt (by omega)
          rw [this, Nat.mul_zero, List.take_of_length_le hle, List.head?_append, List.head?_eq_getElem?]
          rw [List.getElem?_eq_getElem hpos]; rfl
        · rw [if_neg e2, List.getElem?_drop]
          have hlt : pvt < s.length := by
            rcases Nat.lt_or_ge pvt s.length with h | h
            · exact h
            · exact absurd (List.drop_of_length_le h) e2
          have : (s.length - 1) / pvt = (s.length - pvt - 1) / pvt + 1 := by
            have : s.length - 1 = (s.length - pvt - 1) + pvt := by omega
            rw [this, Nat.add_div_right _ hp]
          rw [this, Nat.mul_succ]
          congr 1
          rw [List.length_drop]; omega

theorem flat_get (pvt : Nat) (hp : 0 < pvt) : ∀ (l : List Nat) (i : Nat), (l.flatMap (le pvt))[pvt * i]? = l[i]?.map (· % 256)
  | [], i => by simp
  | x :: l, 0 => by
    obtain ⟨n, rfl⟩ : ∃ n, pvt = n + 1 := ⟨pvt - 1, by omega⟩
    simp [le]
  | x :: l, i + 1 => by
    rw [List.flatMap_cons, List.getElem?_append_right (by rw [le_length, Nat.mul_succ]; omega), le_length]
    have : pvt * (i + 1) - pvt = pvt * i := by rw [Nat.mul_succ]; omega
    rw [this, flat_get pvt hp l i]; simp

theorem flat_length (pvt : Nat) (l : List Nat) : (l.flatMap (le pvt)).length = pvt * l.length := by
  induction l with
  | nil => simp
  | cons x l ih => rw [List.flatMap_cons, List.length_append, ih, le_length, List.length_cons, Nat.mul_succ]; omega

/-! ### Cut values -/

/-- What the library's serializers do at the end of a stream: nothing comes back from an empty stream, and a value of
which bytes are missing is not read (the loop runs forever). -/
structure Strict (f : Ser V) (valid : V → Prop) : Prop where
  nil : ∀ n v r, f.read n [] = .ok (v, r) → r = []
  short : ∀ v, valid v → ∀ c t, c ++ t = f.write v → t ≠ [] → f.read (f.write v).length c = .ub

theorem rdInt_short {n : Nat} {s : List Nat} (h : s.length < n) : rdInt n s = .ub := by
  unfold rdInt rdN; rw [if_neg (by omega)]; rfl

theorem rdElems_nil {sz : Nat} : ∀ {n : Nat} {x : List Nat × List Nat}, rdElems sz n [] = .ok x → x.2 = []
  | 0, x, h => by cases h; rfl
  | n + 1, x, h => by
    unfold rdElems at h
    cases e : rdInt sz [] with
    | ub => rw [e] at h; cases h
    | err e' => rw [e] at h; cases h
    | ok z =>
      have hz : z.2 = [] := by
        unfold rdInt rdN at e
        split at e
        · cases e; simp
        · cases e
      rw [e, obind_ok, hz] at h
      cases e1 : rdElems sz n [] with
      | ub => rw [e1] at h; cases h
      | err e' => rw [e1] at h; cases h
      | ok y => rw [e1, obind_ok] at h; cases h; show y.2 = []; exact rdElems_nil e1

theorem rdElems_short {sz : Nat} (hz : 0 < sz) : ∀ (n : Nat) (s : List Nat), s.length < sz * n → rdElems sz n s = .ub
  | 0, s, h => by omega
  | n + 1, s, h => by
    unfold rdElems
    by_cases hs : s.length < sz
    · rw [rdInt_short hs]; rfl
    · have : rdInt sz s = .ok (unle (s.take sz), s.drop sz) := by
        unfold rdInt rdN; rw [if_pos (by omega)]; rfl
      rw [this, obind_ok, rdElems_short hz n _ (by rw [Nat.mul_succ] at h; simp; omega)]; rfl

theorem numSer_strict (sz : Nat) : Strict (numSer sz) (fun v => v < 256 ^ sz) where
  nil n v r h := by
    simp only [numSer] at h
    split at h
    · unfold rdInt rdN at h
      split at h
      · cases h; simp
      · cases h
    · cases h
  short v _ c t h ht := by
    have hl : c.length < sz := by
      have := congrArg List.length h
      simp only [numSer, List.length_append, le_length] at this
      have := List.length_pos_iff.2 ht
      omega
    have : (numSer sz).write v = le sz v := rfl
    rw [this, le_length]
    simp only [numSer, if_true]
    exact rdInt_short hl

theorem strSer_strict : Strict strSer (fun v => v.length < 256 ^ 4) where
  nil n v r h := by
    simp only [strSer, rdN] at h
    split at h
    · cases h; simp
    · cases h
  short v _ c t h ht := by
    have hl : c.length < v.length := by
      have := congrArg List.length h
      simp only [strSer, List.length_append] at this
      have := List.length_pos_iff.2 ht
      omega
    simp only [strSer, rdN]
    rw [if_neg (by omega)]

theorem seqSer_strict (sz : Nat) (h0 : 0 < sz) : Strict (seqSer sz) (fun v => (∀ x ∈ v, x < 256 ^ sz) ∧ sz * v.length < 256 ^ 4) where
  nil n v r h := by
    simp only [seqSer] at h
    exact rdElems_nil h
  short v _ c t h ht := by
    have hw : (seqSer sz).write v = v.flatMap (le sz) := rfl
    rw [hw, flat_length]
    have hl : c.length < sz * v.length := by
      have := congrArg List.length h
      rw [hw, flat_length, List.length_append] at this
      have := List.length_pos_iff.2 ht
      omega
    simp only [seqSer]
    rw [Nat.mul_div_cancel_left _ h0]
    exact rdElems_short h0 _ _ hl

/-- Values of fixed size, cut: the serializer waits for bytes that never come. -/
theorem readFixedT_cut (f : Ser V) (valid : V → Prop) (hf : Lawful f valid) (hs : Strict f valid) (hv : f.varSize = false) :
    ∀ (l : List V) (c t : List Nat), (∀ v ∈ l, valid v) → c ++ t = l.flatMap f.write → t ≠ [] → readFixedT f l.length c = .hang
  | [], c, t, _, h, ht => by simp at h; exact absurd h.2 ht
  | a :: l, c, t, hl, h, ht => by
    rw [List.flatMap_cons] at h
    have hsz := hf.fixed hv a (hl a (by simp))
    rw [List.length_cons, readFixedT]
    rcases List.append_eq_append_iff.1 h with ⟨w, h1, h2⟩ | ⟨w, h1, h2⟩
    · by_cases hw : w = []
      · subst hw
        rw [List.append_nil] at h1
        have := hf.round a [] (hl a (by simp))
        rw [List.append_nil, hsz] at this
        rw [← h1, this]
        show (readFixedT f l.length []).bind _ = _
        rw [readFixedT_cut f valid hf hs hv l [] t (fun v hv => hl v (by simp [hv])) (by simpa using h2) ht]
        rfl
      · have := hs.short a (hl a (by simp)) c w h1.symm hw
        rw [hsz] at this
        rw [this]; rfl
    · have := hf.round a w (hl a (by simp))
      rw [hsz] at this
      rw [h1, this]
      show (readFixedT f l.length w).bind _ = _
      rw [readFixedT_cut f valid hf hs hv l w t (fun v hv => hl v (by simp [hv])) h2.symm ht]
      rfl

theorem readVarT_nil (f : Ser V) (valid : V → Prop) (hs : Strict f valid) : ∀ (n : Nat) (b : Bv) {x : List V × List Nat},
    readVarT f n b [] = .ok x → x.2 = []
  | 0, b, x, h => by cases h; rfl
  | n + 1, b, x, h => by
    unfold readVarT at h
    cases e : (isRead 4 b []).1.num 4 with
    | ok z =>
      simp only [e, LRes.bind, isRead_snd, List.drop_nil] at h
      cases e1 : f.read z [] with
      | ok y =>
        rw [e1] at h
        simp only [ofRead, hs.nil z y.1 y.2 e1] at h
        cases e2 : readVarT f n (isRead 4 b []).1 [] with
        | ok w => rw [e2] at h; cases h; show w.2 = []; exact readVarT_nil f valid hs n _ e2
        | err e => rw [e2] at h; cases h
        | ub => rw [e2] at h; cases h
        | hang => rw [e2] at h; cases h
      | err e => rw [e1] at h; cases h
      | ub => rw [e1] at h; cases h
    | err e' => simp only [e, LRes.bind] at h; cases h
    | ub => simp only [e, LRes.bind] at h; cases h
    | hang => simp only [e, LRes.bind] at h; cases h

/-- Values of variable size, cut: if the loop ends at all, the stream is used up. -/
theorem readVarT_cut (f : Ser V) (valid : V → Prop) (hf : Lawful f valid) (hs : Strict f valid) (hv : f.varSize = true) :
    ∀ (l : List V) (b : Bv) (c t : List Nat) {x : List V × List Nat}, (∀ v ∈ l, valid v) → c ++ t = writeVar f l → t ≠ [] →
      readVarT f l.length b c = .ok x → x.2 = []
  | [], b, c, t, x, _, h, ht, _ => by simp [writeVar] at h; exact absurd h.2 ht
  | a :: l, b, c, t, x, hl, h, ht, hr => by
    have hw : writeVar f (a :: l) = le 4 (f.write a).length ++ (f.write a ++ writeVar f l) := by
      simp [writeVar]
    rw [hw] at h
    have hva := hl a (by simp)
    have step : ∀ (n : Nat) (b' : Bv) (z : Nat), (ofRead (f.read z [])).bind (fun x =>
        (readVarT f n b' x.2).bind fun y => LRes.ok (x.1 :: y.1, y.2)) = .ok x → x.2 = [] := by
      intro n b' z h
      cases e1 : f.read z [] with
      | ok y =>
        rw [e1] at h
        simp only [ofRead, LRes.bind, hs.nil z y.1 y.2 e1] at h
        cases e2 : readVarT f n b' [] with
        | ok w => rw [e2] at h; cases h; show w.2 = []; exact readVarT_nil f valid hs n _ e2
        | err e => rw [e2] at h; cases h
        | ub => rw [e2] at h; cases h
        | hang => rw [e2] at h; cases h
      | err e => rw [e1] at h; cases h
      | ub => rw [e1] at h; cases h
    rw [List.length_cons, readVarT] at hr
    by_cases hc : c.length ≤ 4
    · simp only [isRead_snd, List.drop_of_length_le hc] at hr
      cases e : (isRead 4 b c).1.num 4 with
      | ok z => rw [e] at hr; exact step _ _ _ hr
      | err e' => rw [e] at hr; cases hr
      | ub => rw [e] at hr; cases hr
      | hang => rw [e] at hr; cases hr
    · rcases List.append_eq_append_iff.1 h with ⟨w, h1, _⟩ | ⟨w, h1, h2⟩
      · have := congrArg List.length h1
        rw [le_length, List.length_append] at this
        omega
      · have hb := hf.bound hv a hva
        obtain ⟨r1, r2⟩ := rdInt_isRead (rdInt_le 4 _ w hb) b
        rw [← h1] at r1 r2
        simp only [r1, r2, LRes.bind] at hr
        rcases List.append_eq_append_iff.1 h2.symm with ⟨u, h3, h4⟩ | ⟨u, h3, h4⟩
        · by_cases hu : u = []
          · subst hu
            rw [List.append_nil] at h3
            have := hf.round a [] hva
            rw [List.append_nil] at this
            rw [← h3, this] at hr
            simp only [ofRead] at hr
            cases e2 : readVarT f l.length (isRead 4 b c).1 [] with
            | ok w => rw [e2] at hr; cases hr; show w.2 = []; exact readVarT_nil f valid hs _ _ e2
            | err e => rw [e2] at hr; cases hr
            | ub => rw [e2] at hr; cases hr
            | hang => rw [e2] at hr; cases hr
          · rw [hs.short a hva w u h3.symm hu] at hr
            cases hr
        · rw [h3, hf.round a u hva] at hr
          simp only [ofRead] at hr
          cases e2 : readVarT f l.length (isRead 4 b c).1 u with
          | ok w =>
            rw [e2] at hr; cases hr
            show w.2 = []
            exact readVarT_cut f valid hf hs hv l _ u t (fun v hv => hl v (by simp [hv])) h4.symm ht e2
          | err e => rw [e2] at hr; cases hr
          | ub => rw [e2] at hr; cases hr
          | hang => rw [e2] at hr; cases hr

/-! ### Where the cut is -/

/-- The bytes `save_state` writes. -/
theorem save_form (f : Ser V) (pvt : Nat) (h0 : 0 < pvt) {p : Packed V} (hp : Storable (256 ^ pvt) p) {bytes : List Nat}
    (h : save f pvt p = .ok bytes) : ∃ vs, writeVals f p.vals = .ok vs ∧
      bytes = le 2 (if f.varSize then 1 else 0) ++ (le 4 p.vals.length ++ (vs ++ ([255] ++ (le 1 pvt ++
        (le 8 p.pk.length ++ (p.pk.flatMap (le pvt) ++ [255])))))) := by
  have hcap : 2 ≤ 256 ^ pvt := by
    calc 2 ≤ 256 ^ 1 := by omega
      _ ≤ 256 ^ pvt := Nat.pow_le_pow_right (by omega) h0
  obtain ⟨r, l, hpk, -, ht⟩ := hp.shape hcap
  have hwb : walkBuffer p.pk = .ok p.pk := by rw [hpk]; exact walkBuffer_spec r l ht
  unfold save at h
  cases e : writeVals f p.vals with
  | ok vs =>
    rw [e, obind_ok, hwb, obind_ok] at h
    cases h
    exact ⟨vs, rfl, by simp only [List.append_assoc]⟩
  | err e' => rw [e] at h; cases h
  | ub => rw [e] at h; cases h

theorem unle_one (x : Nat) : unle [x] = x := by simp [unle]

/-- With nothing left in the stream after the values, the check byte or the cell size is wrong. -/
theorem loadCellsT_nil {pvt : Nat} (h1 : pvt < 255) (c : Nat) (b : Bv) :
    loadCellsT pvt (some c :: b) [] = .err .invalidArg := by
  have h : ∀ n, Bv.num 1 (some n :: b) = .ok n := fun n => by simp [Bv.num, known, unle]
  have hr : isRead 1 (some c :: b) [] = (some c :: b, []) := by simp [isRead]
  unfold loadCellsT
  simp only [hr, h, LRes.bind]
  split
  · rfl
  · rename_i hc
    have : c ≠ pvt := by omega
    rw [if_pos this]

/-- The buffer after the first two reads. -/
theorem first_reads (fl n : Nat) (hn : n < 256 ^ 4) (s : List Nat) :
    let b := (isRead 2 Bv.fresh (le 2 fl ++ (le 4 n ++ s))).1
    b.num 2 = .ok (fl % 256 ^ 2) ∧ (isRead 2 Bv.fresh (le 2 fl ++ (le 4 n ++ s))).2 = le 4 n ++ s ∧
    (isRead 4 b (le 4 n ++ s)).1.num 4 = .ok n ∧ (isRead 4 b (le 4 n ++ s)).2 = s ∧
    (isRead 4 b (le 4 n ++ s)).1 = (le 4 n).map some ++ List.replicate 4 none := by
  refine ⟨?_, ?_, ?_, ?_, ?_⟩
  · rw [isRead_num (by simp [le_length]), List.take_left' (le_length 2 fl), unle_le]
  · rw [isRead_snd, List.drop_left' (le_length 2 fl)]
  · rw [isRead_num (by simp [le_length]), List.take_left' (le_length 4 n), unle_le, Nat.mod_eq_of_lt hn]
  · rw [isRead_snd, List.drop_left' (le_length 4 n)]
  · simp only [isRead, List.take_left' (le_length 4 n), List.take_left' (le_length 2 fl), List.length_append, le_length]
    rw [show min 4 (4 + s.length) = 4 by omega, show min 2 (2 + (4 + s.length)) = 2 by omega]
    simp [le, Bv.fresh, List.replicate]

/-- `load_state` once flags and count have been read. -/
theorem loadT_values (f : Ser V) (pvt : Nat) (q : Packed V) (n : Nat) (hn : n < 256 ^ 4) (s : List Nat) :
    loadT f pvt q (le 2 (if f.varSize then 1 else 0) ++ (le 4 n ++ s)) =
      match readValsT f n s with
      | .ok vs => match loadCellsT pvt ((le 4 n).map some ++ List.replicate 4 none) vs.2 with
        | .ok cs => (⟨cs.1, vs.1⟩, .ok cs.2)
        | .err e => (⟨q.pk, vs.1⟩, .err e)
        | .ub => (q, .ub)
        | .hang => (q, .hang)
      | .err e => (q, .err e)
      | .ub => (q, .ub)
      | .hang => (q, .hang) := by
  obtain ⟨h1, h2, h3, h4, h5⟩ := first_reads (if f.varSize then 1 else 0) n hn s
  rw [h5] at h3
  unfold loadT
  simp only [h1, h2, LRes.bind]
  have hfl : decide ((if f.varSize = true then 1 else 0) % 256 ^ 2 % 2 = 1) = f.varSize := by cases f.varSize <;> rfl
  simp only [hfl, ne_eq, not_true_eq_false, if_false, h3, h4, h5]
  cases readValsT f n s with
  | ok vs => cases loadCellsT pvt ((le 4 n).map some ++ List.replicate 4 none) vs.2 <;> rfl
  | err e => rfl
  | ub => rfl
  | hang => rfl

theorem readValsT_full (f : Ser V) (valid : V → Prop) (hf : Lawful f valid) (l : List V) (vs s : List Nat) (h : ∀ v ∈ l, valid v)
    (hw : writeVals f l = .ok vs) : readValsT f l.length (vs ++ s) = .ok (l, s) := by
  obtain ⟨bs, h1, h2⟩ := readVals_spec f valid hf l s h
  rw [hw] at h1; cases h1
  rw [readValsT_eq f _ _ (by rw [h2]; simp), h2]; rfl

/-- The values, cut: if they are read at all, the stream is used up. -/
theorem readValsT_cut (f : Ser V) (valid : V → Prop) (hf : Lawful f valid) (hs : Strict f valid) (l : List V) (vs c t : List Nat)
    (hl : ∀ v ∈ l, valid v) (hw : writeVals f l = .ok vs) (h : c ++ t = vs) (ht : t ≠ []) {x : List V × List Nat}
    (hr : readValsT f l.length c = .ok x) : x.2 = [] := by
  unfold writeVals at hw
  unfold readValsT at hr
  cases hv : f.varSize with
  | true =>
    simp only [hv, if_true] at hw hr
    cases hw
    exact readVarT_cut f valid hf hs hv l _ c t hl h ht hr
  | false =>
    simp only [hv, Bool.false_eq_true, if_false] at hw hr
    rw [writeFixed_ok f l (fun v hvv => hf.fixed hv v (hl v hvv))] at hw
    have hw' : le 4 f.size ++ l.flatMap f.write = vs := by simpa [Outcome.map] using hw
    by_cases h4 : c.length < 4
    · rw [short_ub (i := 3) (by omega) (by omega) (by simp [Bv.fresh, List.replicate])] at hr
      cases hr
    · obtain ⟨c', e1, e2⟩ : ∃ c', c = le 4 f.size ++ c' ∧ c' ++ t = l.flatMap f.write := by
        rw [← hw'] at h
        rcases List.append_eq_append_iff.1 h with ⟨w, e1, e2⟩ | ⟨s1, e1, e2⟩
        · have := congrArg List.length e1
          rw [le_length, List.length_append] at this
          obtain rfl : w = [] := List.length_eq_zero_iff.1 (by omega)
          exact ⟨[], by simpa using e1.symm, by simpa using e2⟩
        · exact ⟨s1, e1, e2.symm⟩
      rw [isRead_num (by omega), isRead_snd, e1, List.take_left' (le_length _ _), List.drop_left' (le_length _ _), unle_le,
        Nat.mod_eq_of_lt (hf.size hv)] at hr
      simp only [LRes.bind, ne_eq, not_true_eq_false, if_false] at hr
      rw [readFixedT_cut f valid hf hs hv l c' t hl e2 ht] at hr
      cases hr

/-- **C63, the cut is before the first cell**: the stream is never accepted. -/
theorem C63_cut_early (f : Ser V) (valid : V → Prop) (hf : Lawful f valid) (hs : Strict f valid) (pvt : Nat) (h0 : 0 < pvt)
    (h1 : pvt ≤ 8) (p : Packed V) (hp : Storable (256 ^ pvt) p) (hv : ∀ v ∈ p.vals, valid v) (hn : p.vals.length < 2 ^ 32)
    {s t : List Nat} (hsave : save f pvt p = .ok (s ++ t)) (ht : pvt * p.pk.length + 1 < t.length) (q : Packed V) :
    ∀ r, (loadT f pvt q s).2 ≠ .ok r := by
  obtain ⟨vs, hw, hb⟩ := save_form f pvt h0 hp hsave
  have hn4 : p.vals.length < 256 ^ 4 := by simpa using hn
  have hfl : decide ((if f.varSize = true then 1 else 0) % 256 ^ 2 % 2 = 1) = f.varSize := by cases f.varSize <;> rfl
  intro r
  by_cases hl2 : s.length < 2
  · unfold loadT
    have hu : (isRead 2 Bv.fresh s).1.num 2 = .ub :=
      short_ub (i := 1) (by omega) (by omega) (by simp [Bv.fresh, List.replicate])
    simp only [hu, LRes.bind]
    intro h; cases h
  obtain ⟨s1, e1, e2⟩ : ∃ s1, s = le 2 (if f.varSize then 1 else 0) ++ s1 ∧ s1 ++ t = le 4 p.vals.length ++ (vs ++ ([255] ++ (le 1 pvt ++
        (le 8 p.pk.length ++ (p.pk.flatMap (le pvt) ++ [255]))))) := by
    rcases List.append_eq_append_iff.1 hb with ⟨w, e1, e2⟩ | ⟨s1, e1, e2⟩
    · have := congrArg List.length e1
      rw [le_length, List.length_append] at this
      obtain rfl : w = [] := List.length_eq_zero_iff.1 (by omega)
      exact ⟨[], by simpa using e1.symm, by simpa using e2⟩
    · exact ⟨s1, e1, e2.symm⟩
  by_cases hl4 : s1.length < 4
  · have hr : (isRead 2 Bv.fresh s).1.num 2 = .ok ((if f.varSize then 1 else 0) % 256 ^ 2) := by
      rw [isRead_num (by omega), e1, List.take_left' (le_length _ _), unle_le]
    have hd : (isRead 2 Bv.fresh s).2 = s1 := by rw [isRead_snd, e1, List.drop_left' (le_length _ _)]
    have hu : (isRead 4 (isRead 2 Bv.fresh s).1 s1).1.num 4 = .ub := by
      refine short_ub (i := 3) (by omega) (by omega) ?_
      rw [e1]
      simp [isRead, le, Bv.fresh, List.replicate]
    unfold loadT
    simp only [hr, hd, LRes.bind, hfl, hu, ne_eq, not_true_eq_false, if_false]
    intro h; cases h
  obtain ⟨s2, e3, e4⟩ : ∃ s2, s1 = le 4 p.vals.length ++ s2 ∧ s2 ++ t = vs ++ ([255] ++ (le 1 pvt ++
        (le 8 p.pk.length ++ (p.pk.flatMap (le pvt) ++ [255])))) := by
    rcases List.append_eq_append_iff.1 e2 with ⟨w, e1, e2⟩ | ⟨s1, e1, e2⟩
    · have := congrArg List.length e1
      rw [le_length, List.length_append] at this
      obtain rfl : w = [] := List.length_eq_zero_iff.1 (by omega)
      exact ⟨[], by simpa using e1.symm, by simpa using e2⟩
    · exact ⟨s1, e1, e2.symm⟩
  rw [e1, e3, loadT_values f pvt q _ hn4]
  have key : ∀ x, readValsT f p.vals.length s2 = .ok x → ∀ z,
      loadCellsT pvt ((le 4 p.vals.length).map some ++ List.replicate 4 none) x.2 ≠ .ok z := by
    intro x hx z
    have hle : (le 4 p.vals.length).map some ++ List.replicate 4 none =
        some (p.vals.length % 256) :: ((le 4 p.vals.length).map some ++ List.replicate 4 none).tail := by simp [le]
    by_cases hc : s2.length < vs.length
    · obtain ⟨w, e5, -⟩ : ∃ w, vs = s2 ++ w ∧ t = w ++ ([255] ++ (le 1 pvt ++
        (le 8 p.pk.length ++ (p.pk.flatMap (le pvt) ++ [255])))) := by
        rcases List.append_eq_append_iff.1 e4 with ⟨w, e1, e2⟩ | ⟨s1, e1, e2⟩
        · exact ⟨w, e1, e2⟩
        · have := congrArg List.length e1
          rw [List.length_append] at this
          omega
      have hw0 : w ≠ [] := fun e => by subst e; simp at e5; subst e5; omega
      rw [readValsT_cut f valid hf hs p.vals vs s2 w hv hw e5.symm hw0 hx, hle, loadCellsT_nil (by omega)]
      intro h; cases h
    · obtain ⟨s3, e5, e6⟩ : ∃ s3, s2 = vs ++ s3 ∧ s3 ++ t = 255 :: pvt ::
        (le 8 p.pk.length ++ (p.pk.flatMap (le pvt) ++ [255])) := by
        have hp1 : le 1 pvt = [pvt] := by simp [le]; omega
        rw [hp1] at e4
        rcases List.append_eq_append_iff.1 e4 with ⟨w, e1, e2⟩ | ⟨s1, e1, e2⟩
        · have := congrArg List.length e1
          rw [List.length_append] at this
          obtain rfl : w = [] := List.length_eq_zero_iff.1 (by omega)
          exact ⟨[], by simpa using e1.symm, by simpa using e2⟩
        · exact ⟨s1, e1, by simpa using e2.symm⟩
      rw [e5, readValsT_full f valid hf _ _ _ hv hw] at hx
      cases hx
      have h10 : s3.length < 10 := by
        have := congrArg List.length e6
        simp only [List.length_append, List.length_cons, le_length, flat_length, List.length_nil] at this
        omega
      show loadCellsT pvt _ s3 ≠ _
      match s3, e6, h10 with
      | [], _, _ => rw [hle, loadCellsT_nil (by omega)]; intro h; cases h
      | [a], e6, _ =>
        obtain rfl : a = 255 := by simpa using (List.cons.inj e6).1
        rw [hle]
        unfold loadCellsT
        simp only [isRead, Bv.num, known, unle, LRes.bind, List.take, List.drop, List.map, List.length_cons, List.length_nil,
          List.cons_append, List.nil_append]
        simp [known, unle, show 255 ≠ pvt by omega]
      | a :: b :: s4, e6, h10 =>
        obtain rfl : a = 255 := by simpa using (List.cons.inj e6).1
        obtain rfl : b = pvt := by simpa using (List.cons.inj (List.cons.inj e6).2).1
        simp only [List.length_cons] at h10
        obtain ⟨b0, b1, b2, b3, hb4⟩ : ∃ b0 b1 b2 b3, (le 4 p.vals.length).map some = [b0, b1, b2, b3] := by simp [le]
        rw [hb4]
        have hu : (isRead 8 ([some b, b1, b2, b3] ++ List.replicate 4 none) s4).1.num 8 = .ub :=
          short_ub (i := 7) (by omega) (by omega) (by simp [List.replicate])
        have g1 : isRead 1 ([b0, b1, b2, b3] ++ List.replicate 4 none) (255 :: b :: s4) =
            ([some 255, b1, b2, b3] ++ List.replicate 4 none, b :: s4) := by simp [isRead]
        have g2 : isRead 1 ([some 255, b1, b2, b3] ++ List.replicate 4 none) (b :: s4) =
            ([some b, b1, b2, b3] ++ List.replicate 4 none, s4) := by simp [isRead]
        have g3 : ∀ x, Bv.num 1 ([some x, b1, b2, b3] ++ List.replicate 4 none) = .ok x := fun x => by
          simp [Bv.num, known, unle]
        unfold loadCellsT
        simp only [g1, g2, g3, hu, LRes.bind, ne_eq, not_true_eq_false, if_false]
        intro h; cases h
  cases hx : readValsT f p.vals.length s2 with
  | ok x =>
    have := key x hx
    cases hz : loadCellsT pvt ((le 4 p.vals.length).map some ++ List.replicate 4 none) x.2 with
    | ok z => exact absurd hz (this z)
    | err e => dsimp only; rw [hz]; intro h; cases h
    | ub => dsimp only; rw [hz]; intro h; cases h
    | hang => dsimp only; rw [hz]; intro h; cases h
  | err e => intro h; cases h
  | ub => intro h; cases h
  | hang => intro h; cases h

/-- The number of which the low byte is left in the buffer when the stream ends after `j` bytes of the cells: the cell
the cut is in or behind, or the number of cells if not one byte of them is there. -/
def lastNum (pvt : Nat) (pk : List Nat) (j : Nat) : Nat := if j = 0 then pk.length else pk.getD ((j - 1) / pvt) 0

/-- `load_state` of a stream that ends within the cells, up to the last check. -/
theorem loadT_cells (f : Ser V) (valid : V → Prop) (hf : Lawful f valid) (pvt : Nat) (h0 : 0 < pvt)
    (h1 : pvt ≤ 8) (p : Packed V) (hp : Storable (256 ^ pvt) p) (hv : ∀ v ∈ p.vals, valid v) (hn : p.vals.length < 2 ^ 32)
    (hk : p.pk.length < 2 ^ 64) {s t : List Nat} (hsave : save f pvt p = .ok (s ++ t)) (ht0 : t ≠ [])
    (ht : t.length ≤ pvt * p.pk.length + 1) (q : Packed V) :
    ∃ cs, loadT f pvt q s = if lastNum pvt p.pk (pvt * p.pk.length + 1 - t.length) % 256 ≠ 255
      then (⟨q.pk, p.vals⟩, .err .invalidArg)
      else match walkBuffer cs with
        | .ok _ => (⟨cs, p.vals⟩, .ok [])
        | _ => (q, .ub) := by
  obtain ⟨vs, hw, hb⟩ := save_form f pvt h0 hp hsave
  have hn4 : p.vals.length < 256 ^ 4 := by simpa using hn
  have hk8 : p.pk.length < 256 ^ 8 := by simpa using hk
  have htp := List.length_pos_iff.2 ht0
  have hp1 : le 1 pvt = [pvt] := by simp [le]; omega
  obtain ⟨s4, e1, e2⟩ : ∃ s4, s = le 2 (if f.varSize then 1 else 0) ++ (le 4 p.vals.length ++ (vs ++ (255 :: pvt ::
      (le 8 p.pk.length ++ s4)))) ∧ s4 ++ t = p.pk.flatMap (le pvt) ++ [255] := by
    have hb' : s ++ t = (le 2 (if f.varSize then 1 else 0) ++ (le 4 p.vals.length ++ (vs ++ (255 :: pvt ::
      le 8 p.pk.length)))) ++ (p.pk.flatMap (le pvt) ++ [255]) := by rw [hb, hp1]; simp
    have hlen := congrArg List.length hb'
    rw [List.length_append, List.length_append (bs := p.pk.flatMap (le pvt) ++ [255]), List.length_append (bs := [255]),
      flat_length, List.length_singleton] at hlen
    rcases List.append_eq_append_iff.1 hb' with ⟨w, e1, e2⟩ | ⟨w, e1, e2⟩
    · have := congrArg List.length e1
      rw [List.length_append (as := s)] at this
      obtain rfl : w = [] := List.length_eq_zero_iff.1 (by omega)
      exact ⟨[], by simpa using e1.symm, by simpa using e2⟩
    · exact ⟨w, by simpa using e1, e2.symm⟩
  have hj : s4.length = pvt * p.pk.length + 1 - t.length := by
    have := congrArg List.length e2
    rw [List.length_append, List.length_append, flat_length, List.length_singleton] at this
    omega
  rw [← hj]
  have hjle : s4.length ≤ pvt * p.pk.length := by omega
  rw [e1, loadT_values f pvt q _ hn4, readValsT_full f valid hf _ _ _ hv hw]
  dsimp only
  obtain ⟨b0, b1, b2, b3, hb4⟩ : ∃ b0 b1 b2 b3, (le 4 p.vals.length).map some = [b0, b1, b2, b3] := by simp [le]
  rw [hb4]
  have g1 : isRead 1 ([b0, b1, b2, b3] ++ List.replicate 4 none) (255 :: pvt :: (le 8 p.pk.length ++ s4)) =
      ([some 255, b1, b2, b3] ++ List.replicate 4 none, pvt :: (le 8 p.pk.length ++ s4)) := by simp [isRead]
  have g2 : isRead 1 ([some 255, b1, b2, b3] ++ List.replicate 4 none) (pvt :: (le 8 p.pk.length ++ s4)) =
      ([some pvt, b1, b2, b3] ++ List.replicate 4 none, le 8 p.pk.length ++ s4) := by simp [isRead]
  have g3 : ∀ x, Bv.num 1 ([some x, b1, b2, b3] ++ List.replicate 4 none) = .ok x := fun x => by
    simp [Bv.num, known, unle]
  have g4 : isRead 8 ([some pvt, b1, b2, b3] ++ List.replicate 4 none) (le 8 p.pk.length ++ s4) =
      ((le 8 p.pk.length).map some, s4) := by
    simp [isRead, List.take_left' (le_length 8 _), List.drop_left' (le_length 8 _), le_length]
  have g5 : Bv.num 8 ((le 8 p.pk.length).map some) = .ok p.pk.length := by
    rw [num_known, List.take_of_length_le (by simp [le_length]), unle_le, Nat.mod_eq_of_lt hk8]
  obtain ⟨cs, l', c1, c2, c3⟩ := cellsT_known pvt h0 p.pk.length (le 8 p.pk.length) s4 (by rw [le_length]; exact h1) hjle
  obtain ⟨x, l'', rfl⟩ : ∃ x l'', l' = x :: l'' := List.exists_cons_of_ne_nil c2
  have hx : x = lastNum pvt p.pk s4.length % 256 := by
    unfold lastNum
    by_cases hs4 : s4 = []
    · subst hs4
      simp [le] at c3
      simpa using c3
    · have hpos := List.length_pos_iff.2 hs4
      rw [if_neg hs4] at c3
      rw [if_neg (by omega)]
      have hlt : pvt * ((s4.length - 1) / pvt) < s4.length := by
        have := Nat.mul_div_le (s4.length - 1) pvt
        omega
      have hfl : s4[pvt * ((s4.length - 1) / pvt)]? = (p.pk.flatMap (le pvt))[pvt * ((s4.length - 1) / pvt)]? := by
        have h1 : (s4 ++ t)[pvt * ((s4.length - 1) / pvt)]? = s4[pvt * ((s4.length - 1) / pvt)]? :=
          List.getElem?_append_left hlt
        rw [← h1, e2, List.getElem?_append_left (by rw [flat_length]; omega)]
      rw [hfl, flat_get pvt h0] at c3
      have hi : (s4.length - 1) / pvt < p.pk.length := by
        rw [Nat.div_lt_iff_lt_mul h0, Nat.mul_comm]; omega
      rw [List.getElem?_eq_getElem hi] at c3
      simp only [List.head?_cons, Option.map_some, Option.some.injEq] at c3
      rw [c3, List.getD_eq_getElem?_getD, List.getElem?_eq_getElem hi, Option.getD_some]
  have g6 : isRead 1 ((x :: l'').map some) [] = ((x :: l'').map some, []) := by simp [isRead]
  have g7 : Bv.num 1 ((x :: l'').map some) = .ok x := by simp [Bv.num, known, unle]
  refine ⟨cs, ?_⟩
  unfold loadCellsT
  simp only [g1, g2, g3, g4, g5, c1, g6, g7, LRes.bind, ne_eq, not_true_eq_false, if_false, ← hx]
  by_cases h : x = 255
  · subst h
    simp only [not_true_eq_false, if_false]
    cases walkBuffer cs <;> rfl
  · simp only [h, not_false_eq_true, if_true]

/-- **C63, the cut is within or behind the cells**: rejected, unless the low byte of the last number that was read is
the check byte 255. -/
theorem C63_cut_in_cells_partial (f : Ser V) (valid : V → Prop) (hf : Lawful f valid) (pvt : Nat) (h0 : 0 < pvt)
    (h1 : pvt ≤ 8) (p : Packed V) (hp : Storable (256 ^ pvt) p) (hv : ∀ v ∈ p.vals, valid v) (hn : p.vals.length < 2 ^ 32)
    (hk : p.pk.length < 2 ^ 64) {s t : List Nat} (hsave : save f pvt p = .ok (s ++ t)) (ht0 : t ≠ [])
    (ht : t.length ≤ pvt * p.pk.length + 1)
    (hl : lastNum pvt p.pk (pvt * p.pk.length + 1 - t.length) % 256 ≠ 255) (q : Packed V) :
    loadT f pvt q s = (⟨q.pk, p.vals⟩, .err .invalidArg) := by
  obtain ⟨cs, h⟩ := loadT_cells f valid hf pvt h0 h1 p hp hv hn hk hsave ht0 ht q
  rw [h, if_pos hl]

/-- **C63, the same with that byte 255**: no exception; the outcome is undefined, or the stream is accepted. -/
theorem C63_cut_unnoticed_fails (f : Ser V) (valid : V → Prop) (hf : Lawful f valid) (pvt : Nat) (h0 : 0 < pvt)
    (h1 : pvt ≤ 8) (p : Packed V) (hp : Storable (256 ^ pvt) p) (hv : ∀ v ∈ p.vals, valid v) (hn : p.vals.length < 2 ^ 32)
    (hk : p.pk.length < 2 ^ 64) {s t : List Nat} (hsave : save f pvt p = .ok (s ++ t)) (ht0 : t ≠ [])
    (ht : t.length ≤ pvt * p.pk.length + 1)
    (hl : lastNum pvt p.pk (pvt * p.pk.length + 1 - t.length) % 256 = 255) (q : Packed V) :
    (loadT f pvt q s).2 = .ub ∨ (loadT f pvt q s).2 = .ok [] := by
  obtain ⟨cs, h⟩ := loadT_cells f valid hf pvt h0 h1 p hp hv hn hk hsave ht0 ht q
  rw [h, if_neg (by simpa using hl)]
  cases walkBuffer cs with
  | ok _ => exact .inr rfl
  | err _ => exact .inl rfl
  | ub => exact .inl rfl

/-- **C63**: a saved state with bytes missing at its end is not accepted, unless the low byte of the last number read
within the cells is 255. -/
theorem C63_cut_partial (f : Ser V) (valid : V → Prop) (hf : Lawful f valid) (hs : Strict f valid) (pvt : Nat) (h0 : 0 < pvt)
    (h1 : pvt ≤ 8) (p : Packed V) (hp : Storable (256 ^ pvt) p) (hv : ∀ v ∈ p.vals, valid v) (hn : p.vals.length < 2 ^ 32)
    (hk : p.pk.length < 2 ^ 64) {s t : List Nat} (hsave : save f pvt p = .ok (s ++ t)) (ht0 : t ≠ [])
    (hl : t.length ≤ pvt * p.pk.length + 1 → lastNum pvt p.pk (pvt * p.pk.length + 1 - t.length) % 256 ≠ 255)
    (q : Packed V) : ∀ r, (loadT f pvt q s).2 ≠ .ok r := by
  by_cases ht : t.length ≤ pvt * p.pk.length + 1
  · rw [C63_cut_in_cells_partial f valid hf pvt h0 h1 p hp hv hn hk hsave ht0 ht (hl ht) q]
    intro r h; cases h
  · exact C63_cut_early f valid hf hs pvt h0 h1 p hp hv hn hsave (by omega) q

/-- The saved state of `{"a" ↦ 9}` with 4-byte values and 1-byte cells. -/
def cutA : List Nat :=
  [0, 0, 1, 0, 0, 0, 4, 0, 0, 0, 9, 0, 0, 0, 255, 1, 7, 0, 0, 0, 0, 0, 0, 0, 3, 0, 0, 255, 2, 97, 2, 255]

/-- The saved state of `{[255] ↦ 9}` with 1-byte values and 2-byte cells. -/
def cutB : List Nat :=
  [0, 0, 1, 0, 0, 0, 1, 0, 0, 0, 9, 255, 2, 7, 0, 0, 0, 0, 0, 0, 0, 3, 0, 0, 0, 0, 0, 255, 255, 2, 0, 255, 0, 2, 0, 255]

/-- Not every prefix is rejected with an exception: one within the values makes the reader loop for ever (at whatever
number of rounds one looks), one right after the root's empty value offset makes it read outside the cells, and one of
less than six bytes makes it use bytes nobody wrote. -/
theorem C63_rejected_fails :
    ∃ p : Packed Nat, pack 256 (run empty [.insert [97] 9]) = .ok p ∧ save (numSer 4) 1 p = .ok cutA ∧
      (loadT (numSer 4) 1 p (cutA.take 12)).2 = .hang ∧ (∀ fuel, numLoop 4 fuel 4 [] ((cutA.take 12).drop 10) = none) ∧
      (loadT (numSer 4) 1 p (cutA.take 28)).2 = .ub ∧ (loadT (numSer 4) 1 p (cutA.take 5)).2 = .ub :=
  ⟨⟨[3, 0, 0, 255, 2, 97, 2], [9]⟩, by decide, by decide, by decide, fun fuel => num_hangs (by decide) fuel, by decide, by decide⟩

/-- And one is accepted: the last two bytes of the last cell and the check byte are missing, the container takes
another child offset, and looking the key up reads outside the cells. -/
theorem C63_accepted_fails :
    ∃ p : Packed Nat, pack 65536 (run empty [.insert [255] 9]) = .ok p ∧ save (numSer 1) 2 p = .ok cutB ∧
      pFind 65536 p [255] ≠ .ub ∧
      (loadT (numSer 1) 2 p (cutB.take 33)).2 = .ok [] ∧ pFind 65536 (loadT (numSer 1) 2 p (cutB.take 33)).1 [255] = .ub :=
  ⟨⟨[3, 0, 0, 65535, 2, 255, 2], [9]⟩, by decide, by decide, by decide, by decide, by decide⟩

/-- The hypotheses of the theorems are met by a small map, at every length that is not excluded. -/
example : ∃ p : Packed Nat, Storable (256 ^ 1) p ∧ save (numSer 4) 1 p = .ok cutA ∧
    (∀ n, n < 24 → ∀ q r, (loadT (numSer 4) 1 q (cutA.take n)).2 ≠ .ok r) ∧
    (∀ n ∈ [24, 25, 26, 27, 29, 30, 31], ∀ q, loadT (numSer 4) 1 q (cutA.take n) = (⟨q.pk, p.vals⟩, .err .invalidArg)) := by
  have hp : Storable (256 ^ 1) (⟨[3, 0, 0, 255, 2, 97, 2], [9]⟩ : Packed Nat) :=
    .packed (run empty [.insert [97] 9]) _ (by decide) (by decide)
  refine ⟨_, hp, by decide, ?_, ?_⟩
  · intro n hn q
    have e : save (numSer 4) 1 (⟨[3, 0, 0, 255, 2, 97, 2], [9]⟩ : Packed Nat) = .ok (cutA.take n ++ cutA.drop n) := by
      rw [List.take_append_drop]; decide
    refine C63_cut_early (numSer 4) _ (numSer_lawful 4 (by decide)) (numSer_strict 4) 1 (by decide) (by decide) _ hp
      (by simp) (by simp) e ?_ q
    rw [List.length_drop, show cutA.length = 32 from rfl]
    show 1 * 7 + 1 < _
    omega
  · intro n hn q
    have e : save (numSer 4) 1 (⟨[3, 0, 0, 255, 2, 97, 2], [9]⟩ : Packed Nat) = .ok (cutA.take n ++ cutA.drop n) := by
      rw [List.take_append_drop]; decide
    have hl : ∀ n ∈ [24, 25, 26, 27, 29, 30, 31], cutA.drop n ≠ [] ∧ (cutA.drop n).length ≤ 1 * 7 + 1 ∧
        lastNum 1 [3, 0, 0, 255, 2, 97, 2] (1 * 7 + 1 - (cutA.drop n).length) % 256 ≠ 255 := by decide
    obtain ⟨a, b, c⟩ := hl n hn
    exact C63_cut_in_cells_partial (numSer 4) _ (numSer_lawful 4 (by decide)) 1 (by decide) (by decide) _ hp
      (by simp) (by simp) (by simp) e a b c q

end Mdds.Packed
