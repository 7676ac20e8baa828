import Verif.RTree.Insert
/-! Searching and locating. -/
namespace Mdds.RTree

open Node

variable {D : Nat} {V : Type}

theorem covers_entries {S : Shape} : ∀ (h : Nat) {n : Node D V}, WFN S h n →
    ∀ e ∈ n.entries, Covers n.box [e.1] ∧ e.1.Valid := by
  intro h
  induction h with
  | zero =>
    intro n hn e he
    obtain ⟨l, b, p, c, v, ks, rfl⟩ := wfn_cases hn
    obtain ⟨-, -, h3, h4⟩ := wfn_dir.1 hn
    simp only [entries, entriesL_eq, List.mem_flatMap] at he
    obtain ⟨k, hk, he⟩ := he
    obtain ⟨kb, kv, rfl, hv⟩ := h4 k hk
    simp only [entries, List.mem_singleton] at he
    subst he
    exact ⟨covers_mem h3.1 (List.mem_map.2 ⟨_, hk, rfl⟩), hv⟩
  | succ h ih =>
    intro n hn e he
    obtain ⟨l, b, p, c, v, ks, rfl⟩ := wfn_cases hn
    obtain ⟨-, -, h3, h4⟩ := wfn_dir.1 hn
    simp only [entries, entriesL_eq, List.mem_flatMap] at he
    obtain ⟨k, hk, he⟩ := he
    obtain ⟨h5, h6⟩ := ih (h4 k hk).2.2.2 e he
    exact ⟨covers_trans (covers_mem h3.1 (List.mem_map.2 ⟨_, hk, rfl⟩)) h5, h6⟩

mutual
theorem searchN_eq (dc vc : Box D → Bool) (hmono : ∀ b c, Covers b [c] → c.Valid → vc c = true → dc b = true)
    {S : Shape} : ∀ (n : Node D V) (depth : Nat) (path : List Nat) (h : Nat), WFN S h n →
    (searchN dc vc depth path n).map (fun x => (x.box, x.v)) = n.entries.filter fun e => vc e.1
  | .val b p v, _, _, h, hn => by cases h <;> simp [WFN] at hn
  | .dir l b p c v ks, depth, path, h, hn => by
    obtain ⟨-, -, h3, h4⟩ := wfn_dir.1 hn
    simp only [searchN, entries]
    split
    · exact searchL_eq dc vc hmono ks (depth + 1) path 0 h h4
    · rename_i hb
      rw [List.map_nil, eq_comm, List.filter_eq_nil_iff]
      intro e he hv
      obtain ⟨h5, h6⟩ := covers_entries h hn e (by simpa [entries] using he)
      exact hb (hmono _ _ h5 h6 hv)
theorem searchL_eq (dc vc : Box D → Bool) (hmono : ∀ b c, Covers b [c] → c.Valid → vc c = true → dc b = true)
    {S : Shape} : ∀ (ks : List (Node D V)) (depth : Nat) (path : List Nat) (i h : Nat), (∀ k ∈ ks, Kid S h k) →
    (searchL dc vc depth path i ks).map (fun x => (x.box, x.v)) = (entriesL ks).filter fun e => vc e.1
  | [], _, _, _, _, _ => rfl
  | k :: ks, depth, path, i, h, hk => by
    simp only [searchL, entriesL, List.map_append, List.filter_append]
    rw [searchL_eq dc vc hmono ks depth path (i + 1) h (fun k hk' => hk k (by simp [hk']))]
    congr 1
    have := hk k (by simp)
    cases h with
    | zero =>
      obtain ⟨kb, kv, rfl, _⟩ := this
      by_cases hv : vc kb = true
      · simp [searchN, entries, hv]
      · simp [searchN, entries, hv]
    | succ h => exact searchN_eq dc vc hmono k depth _ h this.2.2.2
end

mutual
theorem searchN_at (dc vc : Box D → Bool) : ∀ (n : Node D V) (depth : Nat) (path : List Nat) (x : Hit D V),
    x ∈ searchN dc vc depth path n → ∃ r, x.path = path ++ r ∧ x.depth = depth + r.length ∧ At n r x.box x.v ∧
      vc x.box = true
  | .val b p v, depth, path, x, hx => by
    simp only [searchN] at hx
    split at hx
    · simp at hx; subst hx; rename_i hv
      exact ⟨[], by simp, by simp, ⟨rfl, rfl⟩, hv⟩
    · simp at hx
  | .dir l b p c v ks, depth, path, x, hx => by
    simp only [searchN] at hx
    split at hx
    · obtain ⟨j, k, r, h1, h2, h3, h4, h5⟩ := searchL_at dc vc ks (depth + 1) path 0 x hx
      exact ⟨j :: r, by simpa using h2, by rw [h3]; simp; omega, ⟨k, h1, h4⟩, h5⟩
    · simp at hx
theorem searchL_at (dc vc : Box D → Bool) : ∀ (ks : List (Node D V)) (depth : Nat) (path : List Nat) (i : Nat)
    (x : Hit D V), x ∈ searchL dc vc depth path i ks → ∃ j k r, ks[j]? = some k ∧ x.path = path ++ (i + j) :: r ∧
      x.depth = depth + r.length ∧ At k r x.box x.v ∧ vc x.box = true
  | [], _, _, _, _, hx => by simp [searchL] at hx
  | k :: ks, depth, path, i, x, hx => by
    simp only [searchL, List.mem_append] at hx
    rcases hx with hx | hx
    · obtain ⟨r, h1, h2, h3, h4⟩ := searchN_at dc vc k depth _ x hx
      exact ⟨0, k, r, rfl, by simpa using h1, h2, h3, h4⟩
    · obtain ⟨j, k', r, h1, h2, h3, h4⟩ := searchL_at dc vc ks depth path (i + 1) x hx
      exact ⟨j + 1, k', r, by simpa using h1, by rw [h2]; congr 2; omega, h3, h4⟩
end

mutual
theorem searchN_nodup (dc vc : Box D → Bool) : ∀ (n : Node D V) (depth : Nat) (path : List Nat),
    ((searchN dc vc depth path n).map Hit.path).Nodup
  | .val b p v, depth, path => by
    simp only [searchN]; split <;> simp
  | .dir l b p c v ks, depth, path => by
    simp only [searchN]; split
    · exact searchL_nodup dc vc ks _ _ _
    · simp
theorem searchL_nodup (dc vc : Box D → Bool) : ∀ (ks : List (Node D V)) (depth : Nat) (path : List Nat) (i : Nat),
    ((searchL dc vc depth path i ks).map Hit.path).Nodup
  | [], _, _, _ => by simp [searchL]
  | k :: ks, depth, path, i => by
    simp only [searchL, List.map_append]
    rw [List.nodup_append]
    refine ⟨searchN_nodup dc vc k _ _, searchL_nodup dc vc ks _ _ _, ?_⟩
    intro a ha b hb
    simp only [List.mem_map] at ha hb
    obtain ⟨x, hx, rfl⟩ := ha
    obtain ⟨y, hy, rfl⟩ := hb
    obtain ⟨r, h1, -⟩ := searchN_at dc vc k depth _ x hx
    obtain ⟨j, k', r', -, h2, -⟩ := searchL_at dc vc ks depth path (i + 1) y hy
    rw [h1, h2]
    intro he
    simp at he
    omega
end

theorem At.mem : ∀ (n : Node D V) (path : List Nat) {b : Box D} {v : V}, At n path b v → (b, v) ∈ n.entries
  | .val b' p v', [], b, v, h => by simp only [At] at h; simp [entries, h]
  | .val _ _ _, _ :: _, _, _, h => by simp [At] at h
  | .dir _ _ _ _ _ _, [], _, _, h => by simp [At] at h
  | .dir l b' p c v' ks, i :: r, b, v, h => by
    obtain ⟨k, hk, h⟩ := h
    simp only [entries, entriesL_eq, List.mem_flatMap]
    exact ⟨k, List.mem_of_getElem? hk, At.mem k r h⟩

mutual
theorem at_of_mem : ∀ (n : Node D V) {b : Box D} {v : V}, (b, v) ∈ n.entries → ∃ path, At n path b v
  | .val b' p v', b, v, h => ⟨[], by simpa [entries, At, eq_comm] using h⟩
  | .dir l b' p c v' ks, b, v, h => by
    obtain ⟨i, k, r, h1, h2⟩ := at_of_memL ks (by simpa [entries] using h)
    exact ⟨i :: r, k, h1, h2⟩
theorem at_of_memL : ∀ (ks : List (Node D V)) {b : Box D} {v : V}, (b, v) ∈ entriesL ks →
    ∃ (i : Nat) (k : Node D V) (r : List Nat), ks[i]? = some k ∧ At k r b v
  | [], _, _, h => by simp [entriesL] at h
  | k :: ks, b, v, h => by
    simp only [entriesL, List.mem_append] at h
    rcases h with h | h
    · obtain ⟨r, hr⟩ := at_of_mem k h
      exact ⟨0, k, r, rfl, hr⟩
    · obtain ⟨i, k', r, h1, h2⟩ := at_of_memL ks h
      exact ⟨i + 1, k', r, by simpa using h1, h2⟩
end

theorem locate_ok {S : Shape} : ∀ (h : Nat) (path : List Nat) {fs : List (Frame D V)} {n : Node D V} {xb : Box D} {xv : V},
    WFN S h n → Slot S h fs n.par n.count → PathOK S h n.box fs → At n path xb xv →
    ∃ b p c v ks fs' i, locate path fs n = some (.dir true b p c v ks, fs', i) ∧
      ks[i]? = some (.val xb .right xv) ∧ xb.Valid ∧
      WFN S 0 (.dir true b p c v ks) ∧ Slot S 0 fs' p c ∧ PathOK S 0 b fs' ∧
      zip fs' (.dir true b p c v ks) = zip fs n ∧ fs'.length = fs.length + h ∧ path.length = h + 1 := by
  intro h
  induction h with
  | zero =>
    intro path fs n xb xv hn hs hp ha
    obtain ⟨l, b, p, c, v, ks, rfl⟩ := wfn_cases hn
    obtain ⟨h1, h2, h3, h4⟩ := wfn_dir.1 hn
    have hl : l = true := by simpa using h1
    subst hl
    cases path with
    | nil => simp [At] at ha
    | cons i r =>
      obtain ⟨k, hk, ha⟩ := ha
      obtain ⟨kb, kv, rfl, hv⟩ := h4 k (List.mem_of_getElem? hk)
      cases r with
      | cons j r => simp [At] at ha
      | nil =>
        obtain ⟨rfl, rfl⟩ := ha
        have hi : i < ks.length := (List.getElem?_eq_some_iff.1 hk).1
        exact ⟨b, p, c, v, ks, fs, i, by simp [locate, kids, hi], hk, hv, hn, hs, hp, rfl, rfl, rfl⟩
  | succ h ih =>
    intro path fs n xb xv hn hs hp ha
    obtain ⟨l, b, p, c, v, ks, rfl⟩ := wfn_cases hn
    obtain ⟨h1, h2, h3, h4⟩ := wfn_dir.1 hn
    have hl : l = false := by simpa using h1
    subst hl
    cases path with
    | nil => simp [At] at ha
    | cons j r =>
      obtain ⟨k, hk, ha⟩ := ha
      obtain ⟨hjl, hkj⟩ := List.getElem?_eq_some_iff.1 hk
      obtain ⟨k1, k2, k3, k4⟩ := h4 k (List.mem_of_getElem? hk)
      let f : Frame D V := ⟨false, b, p, c, v, ks.take j, ks.drop (j + 1)⟩
      have hsplit : ks.take j ++ k :: ks.drop (j + 1) = ks := take_cons_drop hk
      have hpath : PathOK S h k.box (f :: fs) := by
        refine ⟨rfl, ?_, ?_, fun k hk => h4 k (List.mem_of_mem_take hk), fun k hk => h4 k (List.mem_of_mem_drop hk), hs, hp⟩
        · simp only [f, List.length_take, List.length_drop]; omega
        · simp only [f]
          rw [← List.map_cons, ← List.map_append, hsplit]; exact h3
      obtain ⟨b', p', c', v', ks', fs', i, e, q1, q2, w, s, pk, z, len, pl⟩ :=
        ih r (fs := f :: fs) k4 ⟨k1, k2, k3⟩ hpath ha
      cases r with
      | nil => simp at pl
      | cons j' r =>
        refine ⟨b', p', c', v', ks', fs', i, by simp only [locate, hk]; exact e, q1, q2, w, s, pk, ?_, ?_, ?_⟩
        · rw [z]
          simp only [zip, Frame.plug, f, hsplit]
        · rw [len, List.length_cons]; omega
        · simp at pl ⊢; omega

end Mdds.RTree
