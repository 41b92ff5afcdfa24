import Verif.Model.Heap
import Verif.Proofs.Edit
/-! # Slices in memory: in-place edits have the effect of the value model -/

namespace RL.Mem
open Ed

/-- The slice lies within its array. -/
structure Slice.Ok (h : Heap) (s : Slice) : Prop where
  arr : s.arr < h.next
  len : s.len ≤ s.cap
  cap : s.off + s.cap ≤ (h.mem s.arr).length

/-- `h'` is a later memory in which, of the old arrays, only those in `A` may have new contents. -/
structure Keeps (A : Nat → Prop) (h h' : Heap) : Prop where
  next : h.next ≤ h'.next
  mem : ∀ a, a < h.next → ¬ A a → h'.mem a = h.mem a
  len : ∀ a, a < h.next → (h'.mem a).length = (h.mem a).length

variable {A B : Nat → Prop} {h h' h'' : Heap} {s t : Slice} {xs : List Rune} {grow : Nat → Nat → Nat}

theorem Keeps.refl : Keeps A h h := ⟨Nat.le_refl _, fun _ _ _ => rfl, fun _ _ => rfl⟩

theorem Keeps.trans (k : Keeps A h h') (k' : Keeps A h' h'') : Keeps A h h'' :=
  ⟨Nat.le_trans k.next k'.next,
   fun a ha hn => (k'.mem a (Nat.lt_of_lt_of_le ha k.next) hn).trans (k.mem a ha hn),
   fun a ha => (k'.len a (Nat.lt_of_lt_of_le ha k.next)).trans (k.len a ha)⟩

/-- Arrays that did not exist at the start may be written freely. -/
theorem Keeps.trans' (k : Keeps A h h') (k' : Keeps B h' h'') (hB : ∀ a, a < h.next → B a → A a) : Keeps A h h'' :=
  ⟨Nat.le_trans k.next k'.next,
   fun a ha hn => (k'.mem a (Nat.lt_of_lt_of_le ha k.next) (fun hb => hn (hB a ha hb))).trans (k.mem a ha hn),
   fun a ha => (k'.len a (Nat.lt_of_lt_of_le ha k.next)).trans (k.len a ha)⟩

theorem Keeps.mono (k : Keeps A h h') (hA : ∀ a, A a → B a) : Keeps B h h' :=
  ⟨k.next, fun a ha hn => k.mem a ha (fun hb => hn (hA a hb)), k.len⟩

theorem Slice.Ok.keep (o : s.Ok h) (k : Keeps A h h') : s.Ok h' :=
  ⟨Nat.lt_of_lt_of_le o.arr k.next, o.len, by rw [k.len _ o.arr]; exact o.cap⟩

theorem Keeps.get (k : Keeps A h h') (o : s.Ok h) (hn : ¬ A s.arr) : h'.get s = h.get s := by
  simp only [Heap.get, k.mem _ o.arr hn]

theorem Slice.Ok.length (o : s.Ok h) : (h.get s).length = s.len := by
  have := o.len; have := o.cap
  simp [Heap.get]; omega

/-! ### Allocation and writing -/

theorem alloc_get (cap : Nat) : (h.alloc xs cap).1.get (h.alloc xs cap).2 = xs := by
  simp [Heap.get, Heap.alloc]

theorem alloc_keeps (cap : Nat) : Keeps A h (h.alloc xs cap).1 := by
  refine ⟨by simp [Heap.alloc], ?_, ?_⟩ <;> intro a ha <;> simp only [Heap.alloc]
  · intro _; rw [if_neg (by omega)]
  · rw [if_neg (by omega)]

theorem alloc_ok (cap : Nat) : (h.alloc xs cap).2.Ok (h.alloc xs cap).1 := by
  refine ⟨by simp [Heap.alloc], by simp [Heap.alloc]; omega, by simp [Heap.alloc]; omega⟩

theorem store_keeps {a pos : Nat} (hb : pos + xs.length ≤ (h.mem a).length) : Keeps (· = a) h (h.store a pos xs) := by
  refine ⟨Nat.le_refl _, ?_, ?_⟩
  · intro b _ hn; simp only [Heap.store]; rw [if_neg hn]
  · intro b _
    simp only [Heap.store]
    split
    · next e => subst e; simp; omega
    · rfl

/-- Writing right behind the first `n` runes of a window. -/
theorem store_window {m : List Rune} {off n : Nat} (hb : off + n + xs.length ≤ m.length) :
    ((m.take (off + n) ++ xs ++ m.drop (off + n + xs.length)).drop off).take (n + xs.length) = (m.drop off).take n ++ xs := by
  have h1 : (m.take (off + n)).length = off + n := by simp; omega
  rw [List.append_assoc, List.drop_append_of_le_length (by omega), List.take_append, List.drop_take,
    List.take_append]
  have h2 : (List.take (off + n - off) (List.drop off m)).length = n := by simp; omega
  rw [h2]
  have h3 : n + xs.length - n = xs.length := by omega
  rw [h3, List.take_of_length_le (l := List.take (off + n - off) (List.drop off m)) (by omega)]
  simp

/-- `append`. -/
structure Appended (grow : Nat → Nat → Nat) (h : Heap) (a : Slice) (xs : List Rune) : Prop where
  get : (h.append grow a xs).1.get (h.append grow a xs).2 = h.get a ++ xs
  ok : (h.append grow a xs).2.Ok (h.append grow a xs).1
  keeps : Keeps (· = a.arr) h (h.append grow a xs).1
  arr : (h.append grow a xs).2.arr = a.arr ∨ h.next ≤ (h.append grow a xs).2.arr

theorem append_spec (o : s.Ok h) : Appended grow h s xs := by
  have h1 := o.len; have h2 := o.cap; have h3 := o.arr
  by_cases hc : s.len + xs.length ≤ s.cap
  · have e : h.append grow s xs = (h.store s.arr (s.off + s.len) xs, { s with len := s.len + xs.length }) := by
      simp [Heap.append, hc]
    have hk : Keeps (· = s.arr) h (h.store s.arr (s.off + s.len) xs) := store_keeps (by omega)
    constructor
    · rw [e]
      simp only [Heap.get, Heap.store, if_true]
      exact store_window (by omega)
    · rw [e]
      exact ⟨h3, hc, by have := hk.len s.arr h3; rw [show ((h.store s.arr (s.off + s.len) xs).mem
        ({ s with len := s.len + xs.length } : Slice).arr) = (h.store s.arr (s.off + s.len) xs).mem s.arr from rfl, this]; exact h2⟩
    · rw [e]; exact hk
    · rw [e]; exact .inl rfl
  · have e : h.append grow s xs = h.alloc (h.get s ++ xs) (grow s.cap (s.len + xs.length)) := by
      simp [Heap.append, hc]
    constructor
    · rw [e]; exact alloc_get _
    · rw [e]; exact alloc_ok _
    · rw [e]; exact alloc_keeps _
    · rw [e]; exact .inr (Nat.le_refl _)

/-! ### Sub-slices -/

theorem sub_spec (o : s.Ok h) {lo hi : Nat} (hl : lo ≤ hi) (hh : hi ≤ s.len) :
    ∃ t, s.sub lo hi = .ok t ∧ t.Ok h ∧ t.arr = s.arr ∧ t.len = hi - lo ∧ t.off = s.off + lo ∧
      h.get t = ((h.get s).take hi).drop lo := by
  have h1 := o.len; have h2 := o.cap
  refine ⟨⟨s.arr, s.off + lo, hi - lo, s.cap - lo⟩, by rw [Slice.sub, if_pos ⟨hl, by omega⟩],
    ⟨o.arr, by simp; omega, by simp; omega⟩, rfl, rfl, rfl, ?_⟩
  simp only [Heap.get]
  rw [List.take_take, Nat.min_eq_left hh, List.drop_take, List.drop_drop]

theorem upTo_spec (o : s.Ok h) {hi : Nat} (hh : hi ≤ s.len) :
    ∃ t, s.upTo hi = .ok t ∧ t.Ok h ∧ t.arr = s.arr ∧ t.len = hi ∧ t.off = s.off ∧ h.get t = (h.get s).take hi := by
  obtain ⟨t, a, b, c, d, e, f⟩ := sub_spec o (Nat.zero_le hi) hh
  exact ⟨t, a, b, c, d, e, by simpa using f⟩

theorem above_spec (o : s.Ok h) {lo : Nat} (hl : lo ≤ s.len) :
    ∃ t, s.above lo = .ok t ∧ t.Ok h ∧ t.arr = s.arr ∧ t.len = s.len - lo ∧ h.get t = (h.get s).drop lo := by
  obtain ⟨t, a, b, c, d, _, f⟩ := sub_spec o hl (Nat.le_refl _)
  refine ⟨t, by rw [Slice.above, if_pos hl, a], b, c, d, ?_⟩
  rw [f, List.take_of_length_le (by rw [o.length]; exact Nat.le_refl _)]

/-! ### The editing commands -/

/-- The slices of the line lie in their arrays; the kill slot has an array of its own. -/
structure Buf.WF (b : Buf) : Prop where
  buf : b.buf.Ok b.heap
  kill : b.kill.Ok b.heap
  bck : ∀ p, b.bck = some p → p.1.Ok b.heap
  sep : b.kill.arr ≠ b.buf.arr
  sepB : ∀ p, b.bck = some p → b.kill.arr ≠ p.1.arr

/-- The argument does not share memory with the line. -/
structure Apart (s : Slice) (b : Buf) : Prop where
  ok : s.Ok b.heap
  buf : s.arr ≠ b.buf.arr
  kill : s.arr ≠ b.kill.arr
  bck : ∀ p, b.bck = some p → s.arr ≠ p.1.arr

/-- The runes in the command are those of the argument. -/
def Carries (xs : List Rune) : Cmd → Prop
  | .insert ys => ys = xs
  | .set ys => ys = xs
  | _ => True

/-- Text, cursor and killed text are those of the value model. -/
structure Sim (b : Buf) (e : Ed) : Prop where
  text : b.text = e.buf
  idx : b.idx = e.idx
  kill : b.heap.get b.kill = e.lastKill

/-- What a command does to the memory. -/
structure Post (s : Slice) (b b' : Buf) : Prop where
  keeps : Keeps (fun a => a = b.buf.arr ∨ a = s.arr) b.heap b'.heap
  wf : b'.WF
  buf : b'.buf.arr = b.buf.arr ∨ b'.buf.arr = s.arr ∨ b.heap.next ≤ b'.buf.arr ∨ ∃ p, b.bck = some p ∧ b'.buf.arr = p.1.arr
  kill : b'.kill = b.kill ∨ b.heap.next ≤ b'.kill.arr
  bck : b'.bck = b.bck ∨ b'.bck = some (b.buf, b.idx)

/-- Both computations fail in the same way, or both return and the results are related. -/
def Agree {α β} (P : α → β → Prop) : R α → R β → Prop
  | .ok a, .ok b => P a b
  | .error x, .error y => x = y
  | _, _ => False

variable {b b' : Buf}

theorem post_of (w : b.WF) (hb : b'.bck = b.bck) (hk : Keeps (fun a => a = b.buf.arr ∨ a = s.arr) b.heap b'.heap)
    (ho : b'.buf.Ok b'.heap) (ha : b'.buf.arr = b.buf.arr ∨ b'.buf.arr = s.arr ∨ b.heap.next ≤ b'.buf.arr)
    (hok : b'.kill.Ok b'.heap) (hkill : b'.kill = b.kill ∨ b.heap.next ≤ b'.kill.arr) (hne : b'.kill.arr ≠ b'.buf.arr) :
    Post s b b' := by
  refine ⟨hk, ⟨ho, hok, ?_, hne, ?_⟩, ?_, hkill, .inl hb⟩
  · intro p hp; rw [hb] at hp; exact (w.bck p hp).keep hk
  · intro p hp; rw [hb] at hp
    rcases hkill with h | h
    · rw [h]; exact w.sepB p hp
    · have := (w.bck p hp).arr; omega
  · rcases ha with h | h | h
    · exact .inl h
    · exact .inr (.inl h)
    · exact .inr (.inr (.inl h))

theorem Post.move (w : b.WF) (i : Nat) : Post s b { b with idx := i } :=
  post_of w rfl Keeps.refl w.buf (.inl rfl) w.kill (.inl rfl) w.sep

theorem Buf.WF.text (w : b.WF) : b.text.length = b.buf.len := w.buf.length

/-- `pushKill`: the line is as before, the killed text is the given one. -/
theorem pushKill_spec (w : b.WF) (o : t.Ok b.heap) :
    (b.pushKill grow t).WF ∧ (b.pushKill grow t).text = b.text ∧
    (b.pushKill grow t).heap.get (b.pushKill grow t).kill = b.heap.get t ∧
    (∀ A, Keeps A b.heap (b.pushKill grow t).heap) ∧ (b.pushKill grow t).kill.arr = b.heap.next ∧
    (b.pushKill grow t).heap.next = b.heap.next + 1 := by
  have hk : ∀ A, Keeps A b.heap (b.pushKill grow t).heap := fun A => alloc_keeps _
  refine ⟨⟨w.buf.keep (hk (fun _ => False)), alloc_ok _, fun p hp => (w.bck p hp).keep (hk (fun _ => False)), ?_, ?_⟩, ?_, alloc_get _, hk, rfl, rfl⟩
  · have := w.buf.arr
    show b.heap.next ≠ b.buf.arr
    omega
  · intro p hp
    have := (w.bck p hp).arr
    show b.heap.next ≠ p.1.arr
    omega
  · exact (hk (fun _ => False)).get w.buf (fun h => h)

/-- Removing the runes from `i` to `j`. -/
theorem cut_spec (w : b.WF) {i j : Nat} (hi : i ≤ b.buf.len) (hj : j ≤ b.buf.len) :
    ∃ b', b.cut grow i j = .ok b' ∧ Keeps (· = b.buf.arr) b.heap b'.heap ∧ b'.buf.Ok b'.heap ∧
      b'.text = b.text.take i ++ b.text.drop j ∧ b'.idx = b.idx ∧ b'.kill = b.kill ∧ b'.bck = b.bck ∧
      (b'.buf.arr = b.buf.arr ∨ b.heap.next ≤ b'.buf.arr) := by
  obtain ⟨hd, e1, o1, a1, l1, _, g1⟩ := upTo_spec w.buf hi
  obtain ⟨tl, e2, o2, a2, l2, g2⟩ := above_spec w.buf hj
  have ap : Appended grow b.heap hd (b.heap.get tl) := append_spec o1
  refine ⟨{ b with heap := (b.heap.append grow hd (b.heap.get tl)).1, buf := (b.heap.append grow hd (b.heap.get tl)).2 },
    by simp only [Buf.cut, e1, e2, R.bind_ok], by simpa only [a1] using ap.keeps, ap.ok, ?_, rfl, rfl, rfl,
    by simpa only [a1] using ap.arr⟩
  show (Heap.append grow b.heap hd (b.heap.get tl)).1.get _ = _
  rw [ap.get, g1, g2]
  rfl

/-- `pushKill` of a part of the line, then removing a part of it. -/
theorem pushCut (w : b.WF) (o : t.Ok b.heap) {i j : Nat} (hi : i ≤ b.buf.len) (hj : j ≤ b.buf.len) (n : Nat) :
    ∃ b', (b.pushKill grow t).cut grow i j = .ok b' ∧ b'.text = b.text.take i ++ b.text.drop j ∧ b'.idx = b.idx ∧
      b'.heap.get b'.kill = b.heap.get t ∧ Post s b { b' with idx := n } := by
  obtain ⟨w1, t1, k1, kp, ka, kn⟩ := pushKill_spec (grow := grow) w o
  obtain ⟨b', e, kp', ok', tx, ix, kk, bb, ar⟩ := cut_spec (grow := grow) w1 (i := i) (j := j) hi hj
  have hsep : (b.pushKill grow t).kill.arr ≠ b.buf.arr := w1.sep
  refine ⟨b', e, by rw [tx, t1], ix, ?_, post_of w bb ?_ ok' ?_ ?_ ?_ ?_⟩
  · rw [kk, kp'.get w1.kill hsep, k1]
  · exact (kp _).trans (kp'.mono fun a h => .inl h)
  · rcases ar with h | h
    · exact .inl h
    · exact .inr (.inr (by show b.heap.next ≤ b'.buf.arr; omega))
  · show b'.kill.Ok b'.heap
    rw [kk]; exact w1.kill.keep kp'
  · right; show b.heap.next ≤ b'.kill.arr; rw [kk, ka]; exact Nat.le_refl _
  · show b'.kill.arr ≠ b'.buf.arr
    rw [kk]
    rcases ar with h | h
    · rw [h]; exact hsep
    · omega

/-- `pushKill` of a part of the line, then keeping the beginning of it. -/
theorem pushTrunc (w : b.WF) (o : t.Ok b.heap) {i : Nat} (hi : i ≤ b.buf.len) (n : Nat) :
    ∃ u, b.buf.upTo i = .ok u ∧ b.heap.get u = b.text.take i ∧
      Sim { b.pushKill grow t with buf := u, idx := n } ⟨b.text.take i, n, b.heap.get t, none⟩ ∧
      Post s b { b.pushKill grow t with buf := u, idx := n } := by
  obtain ⟨w1, t1, k1, kp, ka, kn⟩ := pushKill_spec (grow := grow) w o
  obtain ⟨u, e1, o1, a1, l1, _, g1⟩ := upTo_spec w.buf hi
  have gu : (b.pushKill grow t).heap.get u = b.heap.get u := (kp (fun _ => False)).get o1 (fun h => h)
  refine ⟨u, e1, g1, ⟨?_, rfl, k1⟩, post_of w rfl (kp _) (o1.keep (kp (fun _ => False))) (.inl a1) w1.kill
    (.inr (by show b.heap.next ≤ b.heap.next; omega)) ?_⟩
  · show (b.pushKill grow t).heap.get u = _
    rw [gu, g1]; rfl
  · show (b.pushKill grow t).kill.arr ≠ u.arr
    rw [a1]; exact w1.sep

theorem killC_sim (w : b.WF) (hi : b.idx ≤ b.buf.len) :
    Agree (fun e' b' => Sim b' e' ∧ Post s b b') (Ed.killC b.abs) (b.killC grow) := by
  obtain ⟨k, e1, o1, a1, l1, g1⟩ := above_spec w.buf hi
  obtain ⟨u, e2, g2, s2, p2⟩ := pushTrunc (s := s) (grow := grow) w o1 hi b.idx
  have hl : b.idx ≤ b.text.length := by rw [w.text]; exact hi
  simp only [Ed.killC, Buf.killC, Buf.abs, sliceFrom_ok hl, sliceTo_ok hl, e1, e2, R.bind_ok, Agree]
  exact ⟨⟨s2.text, rfl, by rw [show ({ b.pushKill grow k with buf := u } : Buf).heap.get
    ({ b.pushKill grow k with buf := u } : Buf).kill = b.heap.get k from s2.kill, g1]; rfl⟩, p2⟩

theorem agree_move {x : R Ed} (w : b.WF)
    (hx : ∀ e, x = .ok e → e.buf = b.text ∧ e.lastKill = b.heap.get b.kill) :
    Agree (fun e' b' => Sim b' e' ∧ Post s b b') x (x >>= fun e => .ok { b with idx := e.idx }) := by
  cases x with
  | error => rfl
  | ok e =>
    obtain ⟨h1, h2⟩ := hx e rfl
    exact ⟨⟨h1.symm, rfl, h2.symm⟩, Post.move w _⟩

/-- Cursor movements change the cursor only. -/
theorem move_keeps {c : Cmd} {e e' : Ed} (h : c.core e = .ok e')
    (hc : c = .left ∨ c = .right ∨ c = .home ∨ c = .toEnd ∨ c = .prevWord ∨ c = .nextWord ∨ c = .endWord ∨
      ∃ x p r, c = .moveTo x p r) : e' = { e with idx := e'.idx } := by
  rcases hc with rfl | rfl | rfl | rfl | rfl | rfl | rfl | ⟨x, p, r, rfl⟩ <;> simp only [Cmd.core] at h
  · simp only [moveBackwardC] at h; split at h <;> cases h <;> rfl
  · simp only [moveForwardC] at h; split at h <;> cases h <;> rfl
  · cases h; rfl
  · cases h; rfl
  · simp only [moveToPrevWordC] at h
    split at h
    · cases h; rfl
    · cases hs : scanDown e.buf (e.idx - 1) with
      | error => rw [hs] at h; cases h
      | ok o => rw [hs] at h; cases o <;> cases h <;> rfl
  · simp only [moveToNextWordC] at h; split at h <;> cases h <;> rfl
  · simp only [moveToEndWordC] at h
    split at h
    · cases h; rfl
    · cases hg : getR e.buf e.idx with
      | error => rw [hg] at h; cases h
      | ok a =>
        rw [hg] at h
        simp only [R.bind_ok] at h
        split at h
        · cases hg2 : getR e.buf (e.idx + 1) with
          | error => rw [hg2] at h; cases h
          | ok a2 =>
            rw [hg2] at h
            simp only [R.bind_ok] at h
            split at h <;> (try simp only [R.bind_ok] at h) <;> split at h <;> cases h <;> rfl
        · try simp only [R.bind_ok] at h
          split at h <;> cases h <;> rfl
  · simp only [moveToC] at h
    split at h
    · cases hs : findDown e.buf x e.idx with
      | error => rw [hs] at h; cases h
      | ok o => rw [hs] at h; cases o <;> cases h <;> rfl
    · split at h <;> cases h <;> rfl

theorem agree_core {c : Cmd} (w : b.WF)
    (hc : c = .left ∨ c = .right ∨ c = .home ∨ c = .toEnd ∨ c = .prevWord ∨ c = .nextWord ∨ c = .endWord ∨
      ∃ x p r, c = .moveTo x p r) :
    Agree (fun e' b' => Sim b' e' ∧ Post s b b') (c.core b.abs) (c.core b.abs >>= fun e => .ok { b with idx := e.idx }) :=
  agree_move w fun e he => by rw [move_keeps he hc]; exact ⟨rfl, rfl⟩

theorem store_two {m : List Rune} {off n i : Nat} {x y : Rune} (hi : i + 1 < n) (hb : off + n ≤ m.length)  :
    ((m.take (off + i) ++ [x, y] ++ m.drop (off + i + 2)).drop off).take n =
      (((m.drop off).take n).set (i + 1) y).set i x := by
  apply List.ext_getElem?
  intro k
  simp only [List.getElem?_take, List.getElem?_drop, List.getElem?_set, List.getElem?_append, List.length_take,
    List.length_set, List.length_drop, List.length_append, List.length_cons, List.length_nil]
  by_cases hk : k < n
  · rw [if_pos hk]
    by_cases h1 : k < i
    · rw [if_pos (by omega), if_pos (by omega), if_pos (by omega), if_neg (by omega), if_neg (by omega), if_pos hk]
    · by_cases h2 : k = i
      · subst h2
        rw [if_pos (by omega), if_neg (by omega), if_pos rfl, if_pos (by omega)]
        have : off + k - min (off + k) m.length = 0 := by omega
        rw [this]; rfl
      · by_cases h3 : k = i + 1
        · subst h3
          rw [if_pos (by omega), if_neg (by omega), if_neg (by omega), if_pos rfl, if_pos (by omega)]
          have : off + (i + 1) - min (off + i) m.length = 1 := by omega
          rw [this]; rfl
        · rw [if_neg (by omega), if_neg (by omega), if_neg (by omega), if_pos hk]
          congr 1; omega
  · rw [if_neg hk, if_neg (by omega), if_neg (by omega), if_neg hk]

theorem store_one {m : List Rune} {off n i : Nat} {x : Rune} (hi : i < n) (hb : off + n ≤ m.length)  :
    ((m.take (off + i) ++ [x] ++ m.drop (off + i + 1)).drop off).take n = ((m.drop off).take n).set i x := by
  apply List.ext_getElem?
  intro k
  simp only [List.getElem?_take, List.getElem?_drop, List.getElem?_set, List.getElem?_append, List.length_take,
    List.length_drop, List.length_append, List.length_cons, List.length_nil]
  by_cases hk : k < n
  · rw [if_pos hk]
    by_cases h1 : k < i
    · rw [if_pos (by omega), if_pos (by omega), if_pos (by omega), if_neg (by omega), if_pos hk]
    · by_cases h2 : k = i
      · subst h2
        rw [if_pos (by omega), if_neg (by omega), if_pos rfl, if_pos (by omega)]
        have : off + k - min (off + k) m.length = 0 := by omega
        rw [this]; rfl
      · rw [if_neg (by omega), if_neg (by omega), if_pos hk]
        congr 1; omega
  · rw [if_neg hk, if_neg (by omega), if_neg hk]

/-- Overwriting `xs.length` runes of the line in place. -/
theorem store_post (w : b.WF) {i n : Nat} (hi : i + xs.length ≤ b.buf.len) :
    Post s b { b with heap := b.heap.store b.buf.arr (b.buf.off + i) xs, idx := n } ∧
    (b.heap.store b.buf.arr (b.buf.off + i) xs).get b.kill = b.heap.get b.kill := by
  have h1 := w.buf.len; have h2 := w.buf.cap
  have hk : Keeps (· = b.buf.arr) b.heap (b.heap.store b.buf.arr (b.buf.off + i) xs) := store_keeps (by omega)
  exact ⟨post_of w rfl (hk.mono fun a h => .inl h) (w.buf.keep hk) (.inl rfl) (w.kill.keep hk) (.inl rfl) w.sep,
    hk.get w.kill w.sep⟩

/-- Every command has the effect of the value model on text, cursor and killed text, and writes only into the line's own
array, into the spare room of its argument, and into new arrays. -/
theorem apply_sim {c : Cmd} (w : b.WF) (hi : b.idx ≤ b.buf.len) (hs : Apart s b) (hc : Carries (b.heap.get s) c) :
    Agree (fun e' b' => Sim b' e' ∧ Post s b b') (c.core b.abs) (b.apply grow s c) := by
  have hl : b.idx ≤ b.text.length := by rw [w.text]; exact hi
  have htl := w.text
  have hx : b.abs.idx = b.idx := rfl
  have hbl : b.abs.buf.length = b.buf.len := w.text
  have hl' : b.abs.idx ≤ b.abs.buf.length := hl
  cases c
  case left => exact agree_core w (c := .left) (.inl rfl)
  case right => exact agree_core w (c := .right) (.inr (.inl rfl))
  case home => exact agree_core w (c := .home) (.inr (.inr (.inl rfl)))
  case toEnd => exact agree_core w (c := .toEnd) (.inr (.inr (.inr (.inl rfl))))
  case prevWord => exact agree_core w (c := .prevWord) (.inr (.inr (.inr (.inr (.inl rfl)))))
  case nextWord => exact agree_core w (c := .nextWord) (.inr (.inr (.inr (.inr (.inr (.inl rfl))))))
  case endWord => exact agree_core w (c := .endWord) (.inr (.inr (.inr (.inr (.inr (.inr (.inl rfl)))))))
  case moveTo x p r =>
    have := agree_core (s := s) w (c := .moveTo x p r) (.inr (.inr (.inr (.inr (.inr (.inr (.inr ⟨x, p, r, rfl⟩)))))))
    simp only [Cmd.core] at this
    simp only [Cmd.core, Buf.apply]
    cases hm : moveToC x p r b.abs with
    | error => rfl
    | ok v => rw [hm] at this; exact this
  case insert ys =>
    obtain rfl : ys = b.heap.get s := hc
    obtain ⟨tl, e2, o2, a2, l2, g2⟩ := above_spec w.buf hi
    obtain ⟨hd, e1, o1, a1, l1, _, g1⟩ := upTo_spec w.buf hi
    have ap : Appended grow b.heap s (b.heap.get tl) := append_spec hs.ok
    have o1' : hd.Ok (b.heap.append grow s (b.heap.get tl)).1 := o1.keep ap.keeps
    have ap2 : Appended grow (b.heap.append grow s (b.heap.get tl)).1 hd
      ((b.heap.append grow s (b.heap.get tl)).1.get (b.heap.append grow s (b.heap.get tl)).2) := append_spec o1'
    simp only [Cmd.core, Buf.apply, writeRunesC, Buf.abs, sliceFrom_ok hl, sliceTo_ok hl, e1, e2, R.bind_ok, Agree]
    have hkill := ap2.keeps.get (s := b.kill) (w.kill.keep ap.keeps) (by rw [a1]; exact w.sep)
    refine ⟨⟨?_, ?_, ?_⟩, post_of w rfl ?_ ap2.ok ?_ ?_ (.inl rfl) ?_⟩
    · show Heap.get _ _ = _
      rw [ap2.get, ap.get, ap.keeps.get o1 (by rw [a1]; exact fun h => hs.buf h.symm), g1, g2]
      rfl
    · show _ = b.idx + _
      rw [hs.ok.length]
    · show Heap.get _ b.kill = _
      rw [hkill, ap.keeps.get w.kill (fun h => hs.kill h.symm)]
    · exact (ap.keeps.mono fun a h => Or.inr h).trans (ap2.keeps.mono fun a h => .inl (h.trans a1))
    · rcases ap2.arr with h | h
      · exact .inl (h.trans a1)
      · exact .inr (.inr (Nat.le_trans ap.keeps.next h))
    · exact (w.kill.keep ap.keeps).keep ap2.keeps
    · rcases ap2.arr with h | h
      · show b.kill.arr ≠ _
        rw [show (Heap.append grow (Heap.append grow b.heap s (b.heap.get tl)).1 hd _).2.arr = _ from h, a1]; exact w.sep
      · have h1 := ap.keeps.next; have h2 := w.kill.arr
        exact fun he : b.kill.arr = _ => by rw [← he] at h; omega
  case set ys =>
    obtain rfl : ys = b.heap.get s := hc
    exact ⟨⟨rfl, hs.ok.length.symm, rfl⟩, post_of w rfl Keeps.refl hs.ok (.inr (.inl rfl)) w.kill (.inl rfl) (fun h => hs.kill h.symm)⟩
  case backup =>
    refine ⟨⟨rfl, rfl, rfl⟩, Keeps.refl, ⟨w.buf, w.kill, ?_, w.sep, ?_⟩, .inl rfl, .inl rfl, .inr rfl⟩
    · intro p hp; cases hp; exact w.buf
    · intro p hp; cases hp; exact w.sep
  case restore =>
    simp only [Cmd.core, Buf.apply, restoreC, Buf.abs]
    cases hb : b.bck with
    | none => exact ⟨⟨rfl, rfl, rfl⟩, Post.move w b.idx⟩
    | some p =>
      obtain ⟨t, i⟩ := p
      have ok := w.bck _ hb
      exact ⟨⟨rfl, rfl, rfl⟩, Keeps.refl, ⟨ok, w.kill, fun p hp => w.bck p (by rw [hb]; exact hp), w.sepB _ hb,
        fun p hp => w.sepB p (by rw [hb]; exact hp)⟩, .inr (.inr (.inr ⟨(t, i), hb, rfl⟩)), .inl rfl, .inl hb.symm⟩
  case backspace =>
    simp only [Cmd.core, Buf.apply, backspaceC]
    by_cases h0 : b.idx = 0
    · rw [if_pos (show _ by first | exact h0 | omega), if_pos h0]; exact ⟨⟨rfl, rfl, rfl⟩, Post.move w b.idx⟩
    · rw [if_neg (show ¬ _ by first | exact h0 | omega), if_neg h0, sliceTo_ok (by omega), sliceFrom_ok (by omega)]
      simp only [R.bind_ok]
      obtain ⟨b', e, kp, ok, tx, ix, kk, bb, ar⟩ :=
        cut_spec (grow := grow) (b := { b with idx := b.idx - 1 }) (i := b.idx - 1) (j := b.idx - 1 + 1) ⟨w.buf, w.kill, w.bck, w.sep, w.sepB⟩
          (by show b.idx - 1 ≤ b.buf.len; omega) (by show b.idx - 1 + 1 ≤ b.buf.len; omega)
      rw [e]
      refine ⟨⟨tx, ix, by rw [kk]; exact kp.get w.kill w.sep⟩, post_of w bb (kp.mono fun a h => .inl h) ok ?_ (by rw [kk]; exact w.kill.keep kp) (.inl kk) ?_⟩
      · rcases ar with h | h
        · exact .inl h
        · exact .inr (.inr h)
      · rw [kk]
        rcases ar with h | h
        · rw [h]; exact w.sep
        · have h2 := w.kill.arr
          have h : b.heap.next ≤ b'.buf.arr := h
          show b.kill.arr ≠ _
          omega
  case kill => exact killC_sim w hi
  case erase =>
    obtain ⟨u, e2, g2, s2, p2⟩ := pushTrunc (s := s) (grow := grow) w w.buf (i := 0) (by omega) 0
    simp only [Cmd.core, Buf.apply, eraseC, Buf.abs, e2, R.bind_ok, Agree, Ed.pushKill]
    exact ⟨⟨s2.text, rfl, s2.kill⟩, p2⟩
  case delete =>
    simp only [Cmd.core, Buf.apply, deleteC]
    by_cases h0 : b.idx = b.buf.len
    · rw [if_pos (show _ by first | exact h0 | omega), if_pos h0]; exact ⟨⟨rfl, rfl, rfl⟩, Post.move w b.idx⟩
    · obtain ⟨k, ek, ok, _, _, _, gk⟩ := sub_spec w.buf (lo := b.idx) (hi := b.idx + 1) (by omega) (by omega)
      obtain ⟨b', e, tx, ix, kk, po⟩ := pushCut (s := s) (grow := grow) w ok (i := b.idx) (j := b.idx + 1) (by omega) (by omega) b.idx
      rw [if_neg (show ¬ _ by first | exact h0 | omega), if_neg h0, slice_ok (by omega) (by omega), sliceTo_ok hl', sliceFrom_ok (by omega), ek]
      simp only [R.bind_ok, R.map_ok, e]
      exact ⟨⟨tx, ix, by rw [kk, gk]; rfl⟩, by rw [← ix] at po; exact po⟩
  case deleteWord =>
    simp only [Cmd.core, Buf.apply, deleteWordC]
    by_cases h0 : b.idx = b.buf.len
    · rw [if_pos (show _ by first | exact h0 | omega), if_pos h0]; exact ⟨⟨rfl, rfl, rfl⟩, Post.move w b.idx⟩
    · rw [if_neg (show ¬ _ by first | exact h0 | omega), if_neg h0]
      obtain ⟨o, hsc⟩ : ∃ o, scanUp (wordStartAt b.text) (skipBreaks b.idx (b.text.drop b.idx) + 1)
        (b.buf.len - (skipBreaks b.idx (b.text.drop b.idx) + 1)) = o := ⟨_, rfl⟩
      have hsc' : scanUp (wordStartAt b.abs.buf) (skipBreaks b.abs.idx (b.abs.buf.drop b.abs.idx) + 1)
        (b.abs.buf.length - (skipBreaks b.abs.idx (b.abs.buf.drop b.abs.idx) + 1)) = o := by rw [hbl]; exact hsc
      rw [hsc, hsc']
      cases o with
      | some i =>
        have hge := (skipBreaks_spec b.text b.idx hl).1
        dsimp only
        obtain ⟨i1, i2, _, _⟩ := scanUp_some hsc
        obtain ⟨k, ek, ok, _, _, _, gk⟩ := sub_spec w.buf (lo := b.idx) (hi := i - 1) (by omega) (by omega)
        obtain ⟨b', e, tx, ix, kk, po⟩ := pushCut (s := s) (grow := grow) w ok (i := b.idx) (j := i - 1) (by omega) (by omega) b.idx
        rw [slice_ok (by omega) (by omega), ek]
        simp only [R.bind_ok, Ed.pushKill, e]
        rw [sliceTo_ok hl', sliceFrom_ok (by omega)]
        exact ⟨⟨tx, ix, by rw [kk, gk]; rfl⟩, by rw [← ix] at po; exact po⟩
      | none => exact killC_sim w hi
  case backEscapeWord =>
    simp only [Cmd.core, Buf.apply, backEscapeWordC]
    by_cases h0 : b.idx = 0
    · rw [if_pos (show _ by first | exact h0 | omega), if_pos h0]; exact ⟨⟨rfl, rfl, rfl⟩, Post.move w b.idx⟩
    · rw [if_neg (show ¬ _ by first | exact h0 | omega), if_neg h0]
      obtain ⟨o, hsd⟩ : ∃ o, scanDown b.text (b.idx - 1) = o := ⟨_, rfl⟩
      rw [hsd, show scanDown b.abs.buf (b.abs.idx - 1) = o from hsd]
      cases o with
      | error => rfl
      | ok o =>
        simp only [R.bind_ok]
        cases o with
        | none =>
          obtain ⟨u, e1, o1, a1, l1, _, g1⟩ := upTo_spec w.buf (hi := 0) (by omega)
          simp only [e1, R.bind_ok]
          exact ⟨⟨by show b.heap.get u = _; rw [g1]; rfl, rfl, rfl⟩,
            post_of w rfl Keeps.refl o1 (.inl a1) w.kill (.inl rfl) (by show b.kill.arr ≠ u.arr; rw [a1]; exact w.sep)⟩
        | some i =>
          have hib : i ≤ b.idx := by
            obtain ⟨res, h1, h2⟩ := scanDown_spec b.text (b.idx - 1) (by omega)
            rw [hsd] at h1; cases h1
            have := h2.1; omega
          obtain ⟨k, ek, ok, _, _, _, gk⟩ := sub_spec w.buf (lo := i) (hi := b.idx) (by omega) (by omega)
          obtain ⟨b', e, tx, ix, kk, po⟩ := pushCut (s := s) (grow := grow) w ok (i := i) (j := b.idx) (by omega) (by omega) i
          dsimp only
          rw [slice_ok (by omega) (by omega), ek, sliceTo_ok (by omega), sliceFrom_ok hl']
          simp only [R.bind_ok, e]
          exact ⟨⟨tx, rfl, by show b'.heap.get b'.kill = _; rw [kk, gk]; rfl⟩, po⟩
  case replace x =>
    simp only [Cmd.core, Buf.apply, replaceC, Buf.abs, htl]
    split
    · next hlt =>
      obtain ⟨po, hk⟩ := store_post (s := s) w (xs := [x]) (i := b.idx) (n := b.idx) (by simp; omega)
      refine ⟨⟨?_, rfl, hk⟩, po⟩
      have h1 := w.buf.len; have h2 := w.buf.cap
      simp only [Buf.text, Heap.get, Heap.store, if_true]
      exact store_one hlt (by omega)
    · rfl
  case killFront =>
    simp only [Cmd.core, Buf.apply, killFrontC]
    by_cases h0 : b.idx = 0
    · rw [if_pos (show _ by first | exact h0 | omega), if_pos h0]; exact ⟨⟨rfl, rfl, rfl⟩, Post.move w b.idx⟩
    · rw [if_neg (show ¬ _ by first | exact h0 | omega), if_neg h0, sliceTo_ok hl', sliceFrom_ok hl']
      obtain ⟨k, ek, ok, _, _, _, gk⟩ := upTo_spec w.buf hi
      obtain ⟨w1, t1, k1, kp, ka, kn⟩ := pushKill_spec (grow := grow) w ok
      have hb1 : (b.pushKill grow k).buf = b.buf := rfl
      have hi1 : (b.pushKill grow k).idx = b.idx := rfl
      obtain ⟨tl, e2, o2, a2, l2, g2⟩ := above_spec w1.buf (lo := b.idx) hi
      obtain ⟨d, e1, o1, a1, l1, f1, g1⟩ := upTo_spec w1.buf (hi := b.buf.len - b.idx) (by rw [hb1]; omega)
      rw [hb1] at e2 e1 a1 f1
      simp only [R.bind_ok, ek, hb1, hi1, e2, e1]
      have hlen : ((b.pushKill grow k).heap.get tl).length = d.len := by rw [o2.length, l2, l1, hb1]
      rw [List.take_of_length_le (show ((b.pushKill grow k).heap.get tl).length ≤ d.len by omega)]
      have c1 := o1.len; have c2 := o1.cap
      have kp2 : Keeps (· = d.arr) (b.pushKill grow k).heap
        ((b.pushKill grow k).heap.store d.arr d.off ((b.pushKill grow k).heap.get tl)) := store_keeps (by omega)
      refine ⟨⟨?_, rfl, ?_⟩, post_of w rfl ((kp _).trans (kp2.mono fun a h => .inl (h.trans a1))) (o1.keep kp2) (.inl a1)
        (w1.kill.keep kp2) (.inr (by show b.heap.next ≤ b.heap.next; omega)) ?_⟩
      · show Heap.get _ d = _
        generalize hz : (b.pushKill grow k).heap.get tl = z at *
        simp only [Heap.get, Heap.store, if_true]
        have := store_window (xs := z) (m := (b.pushKill grow k).heap.mem d.arr) (off := d.off) (n := 0) (by omega)
        simp only [Nat.add_zero, Nat.zero_add, List.take_zero, List.nil_append, hlen] at this
        rw [hlen]
        refine this.trans ?_
        rw [g2]
        show (b.pushKill grow k).text.drop b.idx = _
        rw [t1]; rfl
      · show Heap.get _ (b.pushKill grow k).kill = _
        rw [kp2.get w1.kill (by rw [a1]; exact w1.sep), k1, gk]; rfl
      · show (b.pushKill grow k).kill.arr ≠ d.arr
        rw [a1]; exact w1.sep
  case transpose =>
    by_cases h2 : b.buf.len < 2
    · rw [core_transpose_short (by omega)]
      simp only [Buf.apply, hbl]
      by_cases h1 : b.buf.len = 1
      · simp only [h1, if_true]
        rw [if_pos (by omega)]
        exact ⟨⟨rfl, rfl, rfl⟩, Post.move w _⟩
      · simp only [h1, if_false]
        rw [if_pos h2]
        exact ⟨⟨rfl, rfl, rfl⟩, Post.move w b.idx⟩
    · have hn1 : ¬ b.buf.len = 1 := by omega
      obtain ⟨k, hk⟩ : ∃ k, k = if b.idx = 0 then 1 else if b.idx ≥ b.buf.len then b.buf.len - 1 else b.idx := ⟨_, rfl⟩
      have hkl : k < b.buf.len ∧ 0 < k := by rw [hk]; split <;> (try split) <;> omega
      have hr : (if b.abs.idx = 0 then { b.abs with idx := 1 } else if b.abs.idx ≥ b.abs.buf.length then
          { b.abs with idx := b.abs.buf.length - 1 } else b.abs) = { b.abs with idx := k } := by
        rw [hk, hbl, hx]
        split
        · rfl
        · split
          · rfl
          · rfl
      simp only [Cmd.core, transposeC, Buf.apply]
      rw [if_neg (show ¬ b.abs.buf.length = 1 by omega), if_neg (show ¬ b.abs.buf.length < 2 by omega), if_neg hn1, if_neg h2, hr, ← hk]
      dsimp only
      have g1 : k < b.text.length := by omega
      have g2 : k - 1 < b.text.length := by omega
      rw [show getR b.abs.buf k = .ok b.text[k] from getR_ok g1, show getR b.abs.buf (k - 1) = .ok b.text[k - 1] from getR_ok g2,
        getR_ok g1, getR_ok g2]
      obtain ⟨po, hkl2⟩ := store_post (s := s) w (xs := [b.text[k], b.text[k - 1]]) (i := k - 1) (n := k + 1) (by simp; omega)
      refine ⟨⟨?_, rfl, hkl2⟩, po⟩
      have c1 := w.buf.len; have c2 := w.buf.cap
      have := store_two (m := b.heap.mem b.buf.arr) (off := b.buf.off) (n := b.buf.len) (i := k - 1) (x := b.text[k])
        (y := b.text[k - 1]) (by omega) (by omega)
      simp only [Buf.text, Heap.get, Heap.store, if_true]
      refine this.trans ?_
      rw [show k - 1 + 1 = k by omega]
      rfl
  case yank =>
    have hkl : b.abs.lastKill.length = b.kill.len := w.kill.length
    simp only [Cmd.core, Buf.apply]
    by_cases h0 : b.kill.len = 0
    · rw [if_pos (by omega), if_pos h0]; exact ⟨⟨rfl, rfl, rfl⟩, Post.move w b.idx⟩
    · rw [if_neg (by omega), if_neg h0]
      obtain ⟨tl, e2, o2, a2, l2, g2⟩ := above_spec w.buf hi
      obtain ⟨hd, e1, o1, a1, l1, _, g1⟩ := upTo_spec w.buf hi
      simp only [yankC, sliceTo_ok hl', sliceFrom_ok hl', e1, e2, R.bind_ok]
      obtain ⟨h0, hh0⟩ : ∃ h0, h0 = (b.heap.alloc [] (b.buf.len + b.kill.len)).1 := ⟨_, rfl⟩
      obtain ⟨m0, hm0⟩ : ∃ m0, m0 = (b.heap.alloc [] (b.buf.len + b.kill.len)).2 := ⟨_, rfl⟩
      have k0 : Keeps (fun _ => False) b.heap h0 := by rw [hh0]; exact alloc_keeps _
      have ok0 : m0.Ok h0 := by rw [hh0, hm0]; exact alloc_ok _
      have gm0 : h0.get m0 = [] := by rw [hh0, hm0]; exact alloc_get _
      have am0 : m0.arr = b.heap.next := by rw [hm0]; rfl
      rw [← hh0, ← hm0]
      have p1 : Appended grow h0 m0 (h0.get hd) := append_spec ok0
      obtain ⟨h1, hh1⟩ : ∃ h1, h1 = (h0.append grow m0 (h0.get hd)).1 := ⟨_, rfl⟩
      obtain ⟨m1, hm1⟩ : ∃ m1, m1 = (h0.append grow m0 (h0.get hd)).2 := ⟨_, rfl⟩
      have q1 := p1.get; have q2 := p1.ok; have q3 := p1.keeps; have q4 := p1.arr
      simp only [← hh1, ← hm1] at q1 q2 q3 q4
      have p2 : Appended grow h1 m1 (h1.get b.kill) := append_spec q2
      rw [← hh1, ← hm1]
      obtain ⟨h2, hh2⟩ : ∃ h2, h2 = (h1.append grow m1 (h1.get b.kill)).1 := ⟨_, rfl⟩
      obtain ⟨m2, hm2⟩ : ∃ m2, m2 = (h1.append grow m1 (h1.get b.kill)).2 := ⟨_, rfl⟩
      have r1 := p2.get; have r2 := p2.ok; have r3 := p2.keeps; have r4 := p2.arr
      simp only [← hh2, ← hm2] at r1 r2 r3 r4
      have p3 : Appended grow h2 m2 (h2.get tl) := append_spec r2
      rw [← hh2, ← hm2]
      have n0 := k0.next; have n1 := q3.next; have n2 := r3.next
      have kp1 : Keeps (fun _ => False) b.heap h1 := k0.trans' q3 (fun a ha h => by omega)
      have kp2 : Keeps (fun _ => False) b.heap h2 := kp1.trans' r3 (fun a ha h => by omega)
      have kp3 : Keeps (fun _ => False) b.heap (h2.append grow m2 (h2.get tl)).1 := kp2.trans' p3.keeps (fun a ha h => by omega)
      have no : ¬ False := id
      have gk : (h2.append grow m2 (h2.get tl)).1.get b.kill = b.heap.get b.kill := kp3.get w.kill no
      have har : b.heap.next ≤ (h2.append grow m2 (h2.get tl)).2.arr := by
        rcases p3.arr with h | h
        · rw [h]; omega
        · omega
      refine ⟨⟨?_, by show b.idx + b.kill.len = b.idx + _; rw [hkl], gk⟩, post_of w rfl (kp3.mono fun a h => h.elim) p3.ok (.inr (.inr har))
        (w.kill.keep kp3) (.inl rfl) ?_⟩
      · show Heap.get _ _ = _
        rw [p3.get, r1, q1, gm0, k0.get o1 no, kp1.get w.kill no, kp2.get o2 no, g1, g2]
        rfl
      · have := w.kill.arr
        show b.kill.arr ≠ _
        exact fun he => by rw [← he] at har; omega

end RL.Mem
