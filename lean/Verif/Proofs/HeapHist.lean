import Verif.Proofs.Heap
import Verif.Proofs.History
import Verif.Spec.Memory
/-! # Line and history sharing one memory -/

namespace RL.Mem
open Ed

/-- The entry texts, as in the value model (entries that do not exist yet are empty). -/
def St.item (s : St) (i : Nat) : Item :=
  if i < s.next then ⟨s.get (s.elems i).src, (s.elems i).version, s.get (s.elems i).tmp⟩ else ⟨[], 0, []⟩

/-- The history, as in the value model. -/
def St.hist (s : St) : Hist :=
  { elems := s.item, next := s.next, order := s.order, ver := s.ver, current := s.current, enable := s.enable, fd := .nil, disk := [] }

/-- The arrays in use. -/
def St.Owns (s : St) (a : Nat) : Prop :=
  a = s.b.buf.arr ∨ a = s.b.kill.arr ∨ (∃ p, s.b.bck = some p ∧ a = p.1.arr) ∨
    ∃ i, i < s.next ∧ (a = (s.elems i).src.arr ∨ a = (s.elems i).tmp.arr)

/-- A slice with an array nobody else uses. -/
structure Fresh (t : Slice) (s : St) : Prop where
  ok : t.Ok s.b.heap
  own : ¬ s.Owns t.arr

/-- No history entry shares memory with the line, the kill slot, the backup or another entry. -/
structure St.Own (s : St) : Prop where
  wf : s.b.WF
  good : s.b.abs.Good
  ok : ∀ i, i < s.next → (s.elems i).src.Ok s.b.heap ∧ (s.elems i).tmp.Ok s.b.heap
  buf : ∀ i, i < s.next → (s.elems i).src.arr ≠ s.b.buf.arr ∧ (s.elems i).tmp.arr ≠ s.b.buf.arr
  kill : ∀ i, i < s.next → (s.elems i).src.arr ≠ s.b.kill.arr ∧ (s.elems i).tmp.arr ≠ s.b.kill.arr
  bck : ∀ i p, i < s.next → s.b.bck = some p → (s.elems i).src.arr ≠ p.1.arr ∧ (s.elems i).tmp.arr ≠ p.1.arr
  tmp : ∀ i j, i < s.next → j < s.next → (s.elems i).tmp.arr ≠ (s.elems j).src.arr ∧ (i ≠ j → (s.elems i).tmp.arr ≠ (s.elems j).tmp.arr)
  order : ∀ x ∈ s.order, x < s.next
  cur : ∀ x, s.current = some x → x < s.next

variable {s s' : St} {t u : Slice} {xs : List Rune} {grow : Nat → Nat → Nat} {limit : Int}

theorem St.Own.owned_lt (o : s.Own) {a : Nat} (h : s.Owns a) : a < s.b.heap.next := by
  rcases h with h | h | ⟨p, hp, h⟩ | ⟨i, hi, h | h⟩
  · rw [h]; exact o.wf.buf.arr
  · rw [h]; exact o.wf.kill.arr
  · rw [h]; exact (o.wf.bck p hp).arr
  · rw [h]; exact (o.ok i hi).1.arr
  · rw [h]; exact (o.ok i hi).2.arr

/-- Writing to arrays not in use changes nothing. -/
theorem St.Own.heap (o : s.Own) {h' : Heap} {A : Nat → Prop} (k : Keeps A s.b.heap h') (hA : ∀ a, A a → ¬ s.Owns a) :
    ({ s with b := { s.b with heap := h' } } : St).Own ∧ ({ s with b := { s.b with heap := h' } } : St).hist = s.hist ∧
    ({ s.b with heap := h' } : Buf).abs = s.b.abs := by
  have g : ∀ {t : Slice}, t.Ok s.b.heap → s.Owns t.arr → h'.get t = s.b.heap.get t := fun ht ho => k.get ht (fun ha => hA _ ha ho)
  have habs : ({ s.b with heap := h' } : Buf).abs = s.b.abs := by
    have h1 := g o.wf.buf (.inl rfl)
    have h2 := g o.wf.kill (.inr (.inl rfl))
    have h3 : (Option.map (fun p : Slice × Nat => (h'.get p.1, p.2)) s.b.bck) =
        Option.map (fun p : Slice × Nat => (s.b.heap.get p.1, p.2)) s.b.bck := by
      cases hb : s.b.bck with
      | none => rfl
      | some p => simp only [Option.map_some]; rw [g (o.wf.bck p hb) (.inr (.inr (.inl ⟨p, hb, rfl⟩)))]
    simp only [Buf.abs, Buf.text]
    rw [h1, h2, h3]
  refine ⟨⟨⟨o.wf.buf.keep k, o.wf.kill.keep k, fun p hp => (o.wf.bck p hp).keep k, o.wf.sep, o.wf.sepB⟩, by rw [habs]; exact o.good,
    fun i hi => ⟨(o.ok i hi).1.keep k, (o.ok i hi).2.keep k⟩, o.buf, o.kill, o.bck, o.tmp, o.order, o.cur⟩, ?_, habs⟩
  simp only [St.hist, Hist.mk.injEq, and_true, true_and]
  funext i
  simp only [St.item]
  split
  · next hi =>
    have h1 := g (o.ok i hi).1 (.inr (.inr (.inr ⟨i, hi, .inl rfl⟩)))
    have h2 := g (o.ok i hi).2 (.inr (.inr (.inr ⟨i, hi, .inr rfl⟩)))
    show Item.mk (h'.get _) _ (h'.get _) = Item.mk (s.b.heap.get _) _ (s.b.heap.get _)
    rw [h1, h2]
  · rfl

/-- Allocation. -/
structure Alloc (s : St) (xs : List Rune) (cap : Nat) : Prop where
  own : (s.alloc xs cap).1.Own
  hist : (s.alloc xs cap).1.hist = s.hist
  abs : (s.alloc xs cap).1.b.abs = s.b.abs
  fresh : Fresh (s.alloc xs cap).2 (s.alloc xs cap).1
  get : (s.alloc xs cap).1.get (s.alloc xs cap).2 = xs
  len : (s.alloc xs cap).2.len = xs.length
  other : ∀ u, Fresh u s → Fresh u (s.alloc xs cap).1 ∧ (s.alloc xs cap).1.get u = s.get u ∧ u.arr ≠ (s.alloc xs cap).2.arr

theorem alloc_spec (o : s.Own) (xs : List Rune) (cap : Nat) : Alloc s xs cap := by
  have k : Keeps (fun _ => False) s.b.heap (s.b.heap.alloc xs cap).1 := alloc_keeps _
  obtain ⟨h1, h2, h3⟩ := o.heap k (fun _ h => h.elim)
  refine ⟨h1, h2, h3, ⟨alloc_ok _, fun hw => ?_⟩, alloc_get _, rfl, fun u hu => ⟨⟨hu.ok.keep k, hu.own⟩, k.get hu.ok id, ?_⟩⟩
  · have : s.Owns s.b.heap.next := hw
    have := o.owned_lt this
    omega
  · have := hu.ok.arr
    show u.arr ≠ s.b.heap.next
    omega

theorem item_lt {i : Nat} (h : i < s.next) : s.item i = ⟨s.get (s.elems i).src, (s.elems i).version, s.get (s.elems i).tmp⟩ := if_pos h

theorem item_ge {i : Nat} (h : ¬ i < s.next) : s.item i = ⟨[], 0, []⟩ := if_neg h

/-- Replace entry `x` (or add it). -/
def St.put (s : St) (x : Nat) (it : HItem) (n : Nat) : St :=
  { s with elems := fun i => if i = x then it else s.elems i, next := n }

/-- The slices of the new entry `x` are not used elsewhere. -/
structure Fits (s : St) (x : Nat) (it : HItem) : Prop where
  ok : it.src.Ok s.b.heap ∧ it.tmp.Ok s.b.heap
  buf : it.src.arr ≠ s.b.buf.arr ∧ it.tmp.arr ≠ s.b.buf.arr
  kill : it.src.arr ≠ s.b.kill.arr ∧ it.tmp.arr ≠ s.b.kill.arr
  bck : ∀ p, s.b.bck = some p → it.src.arr ≠ p.1.arr ∧ it.tmp.arr ≠ p.1.arr
  self : it.tmp.arr ≠ it.src.arr
  tmp : ∀ j, j < s.next → j ≠ x → it.tmp.arr ≠ (s.elems j).src.arr ∧ it.tmp.arr ≠ (s.elems j).tmp.arr
  src : ∀ j, j < s.next → j ≠ x → (s.elems j).tmp.arr ≠ it.src.arr

theorem put_own (o : s.Own) {x n : Nat} {it : HItem} (hx : x < n) (hn : s.next ≤ n) (hn' : ∀ i, i < n → i ≠ x → i < s.next)
    (f : Fits s x it) : (s.put x it n).Own := by
  have key : ∀ i, (s.put x it n).elems i = it ∧ i = x ∨ (s.put x it n).elems i = s.elems i ∧ i ≠ x := by
    intro i
    simp only [St.put]
    by_cases h : i = x
    · exact .inl ⟨by rw [if_pos h], h⟩
    · exact .inr ⟨by rw [if_neg h], h⟩
  refine ⟨o.wf, o.good, ?_, ?_, ?_, ?_, ?_, fun y hy => Nat.lt_of_lt_of_le (o.order y hy) hn,
    fun y hy => Nat.lt_of_lt_of_le (o.cur y hy) hn⟩
  · intro i hi
    rcases key i with ⟨h, rfl⟩ | ⟨h, hne⟩ <;> rw [h]
    · exact f.ok
    · exact o.ok i (hn' i hi hne)
  · intro i hi
    rcases key i with ⟨h, rfl⟩ | ⟨h, hne⟩ <;> rw [h]
    · exact f.buf
    · exact o.buf i (hn' i hi hne)
  · intro i hi
    rcases key i with ⟨h, rfl⟩ | ⟨h, hne⟩ <;> rw [h]
    · exact f.kill
    · exact o.kill i (hn' i hi hne)
  · intro i p hi hp
    rcases key i with ⟨h, rfl⟩ | ⟨h, hne⟩ <;> rw [h]
    · exact f.bck p hp
    · exact o.bck i p (hn' i hi hne) hp
  · intro i j hi hj
    rcases key i with ⟨h, e⟩ | ⟨h, hne⟩ <;> rcases key j with ⟨h', e'⟩ | ⟨h', hne'⟩ <;> rw [h, h']
    · exact ⟨f.self, fun h => (h (e.trans e'.symm)).elim⟩
    · exact ⟨(f.tmp j (hn' j hj hne') hne').1, fun _ => (f.tmp j (hn' j hj hne') hne').2⟩
    · exact ⟨f.src i (hn' i hi hne) hne, fun _ h => (f.tmp i (hn' i hi hne) hne).2 h.symm⟩
    · exact o.tmp i j (hn' i hi hne) (hn' j hj hne')

theorem put_hist {x n : Nat} {it : HItem} (hx : x < n) (hn : s.next ≤ n) (hn' : ∀ i, i < n → i ≠ x → i < s.next) :
    (s.put x it n).hist = { s.hist.setItem x ⟨s.get it.src, it.version, s.get it.tmp⟩ with next := n } := by
  have : (s.put x it n).item = fun i => if i = x then ⟨s.get it.src, it.version, s.get it.tmp⟩ else s.item i := by
    funext i
    by_cases h : i = x
    · have he : (s.put x it n).elems i = it := if_pos h
      rw [if_pos h]
      unfold St.item
      rw [if_pos (show i < (s.put x it n).next from (by rw [h]; exact hx)), he]
      rfl
    · have he : (s.put x it n).elems i = s.elems i := if_neg h
      rw [if_neg h]
      unfold St.item
      by_cases h' : i < n
      · rw [if_pos (show i < (s.put x it n).next from h'), if_pos (hn' i h' h), he]; rfl
      · rw [if_neg (show ¬ i < (s.put x it n).next from h'), if_neg (by omega)]
  show Hist.mk _ _ _ _ _ _ _ _ = Hist.mk _ _ _ _ _ _ _ _
  rw [this]
  rfl

/-- Two new slices of different arrays. -/
theorem fits_fresh (x : Nat) (v : Nat) (ft : Fresh t s) (fu : Fresh u s) (ne : u.arr ≠ t.arr) : Fits s x ⟨t, v, u⟩ where
  ok := ⟨ft.ok, fu.ok⟩
  buf := ⟨fun h => ft.own (.inl h), fun h => fu.own (.inl h)⟩
  kill := ⟨fun h => ft.own (.inr (.inl h)), fun h => fu.own (.inr (.inl h))⟩
  bck p hp := ⟨fun h => ft.own (.inr (.inr (.inl ⟨p, hp, h⟩))), fun h => fu.own (.inr (.inr (.inl ⟨p, hp, h⟩)))⟩
  self := ne
  tmp j hj _ := ⟨fun h => fu.own (.inr (.inr (.inr ⟨j, hj, .inl h⟩))), fun h => fu.own (.inr (.inr (.inr ⟨j, hj, .inr h⟩)))⟩
  src j hj _ h := ft.own (.inr (.inr (.inr ⟨j, hj, .inr h.symm⟩)))

/-- A new source. -/
theorem fits_src (o : s.Own) {x : Nat} (hx : x < s.next) (v : Nat) (ft : Fresh t s) : Fits s x ⟨t, v, (s.elems x).tmp⟩ where
  ok := ⟨ft.ok, (o.ok x hx).2⟩
  buf := ⟨fun h => ft.own (.inl h), (o.buf x hx).2⟩
  kill := ⟨fun h => ft.own (.inr (.inl h)), (o.kill x hx).2⟩
  bck p hp := ⟨fun h => ft.own (.inr (.inr (.inl ⟨p, hp, h⟩))), (o.bck x p hx hp).2⟩
  self h := ft.own (.inr (.inr (.inr ⟨x, hx, .inr h.symm⟩)))
  tmp j hj hne := ⟨(o.tmp x j hx hj).1, (o.tmp x j hx hj).2 (fun h => hne h.symm)⟩
  src j hj _ h := ft.own (.inr (.inr (.inr ⟨j, hj, .inr h.symm⟩)))

/-- A new temporary text. -/
theorem fits_tmp (o : s.Own) {x : Nat} (hx : x < s.next) (v : Nat) (ft : Fresh t s) : Fits s x ⟨(s.elems x).src, v, t⟩ where
  ok := ⟨(o.ok x hx).1, ft.ok⟩
  buf := ⟨(o.buf x hx).1, fun h => ft.own (.inl h)⟩
  kill := ⟨(o.kill x hx).1, fun h => ft.own (.inr (.inl h))⟩
  bck p hp := ⟨(o.bck x p hx hp).1, fun h => ft.own (.inr (.inr (.inl ⟨p, hp, h⟩)))⟩
  self h := ft.own (.inr (.inr (.inr ⟨x, hx, .inl h⟩)))
  tmp j hj _ := ⟨fun h => ft.own (.inr (.inr (.inr ⟨j, hj, .inl h⟩))), fun h => ft.own (.inr (.inr (.inr ⟨j, hj, .inr h⟩)))⟩
  src j hj _ := (o.tmp j x hj hx).1

/-- Changing list and pointers only. -/
theorem St.Own.ptr (o : s.Own) {order : List Nat} {cur : Option Nat} (ver : Nat) (en : Bool) (ho : ∀ x ∈ order, x < s.next)
    (hc : ∀ x, cur = some x → x < s.next) : ({ s with order := order, current := cur, ver := ver, enable := en } : St).Own :=
  { o with order := ho, cur := hc }

/-- `Push`. -/
theorem push_spec (o : s.Own) :
    (s.push t).Own ∧ (s.push t).hist = s.hist.push (s.get t) ∧ (s.push t).b.abs = s.b.abs := by
  obtain ⟨o1, hi1, ab1, f1, g1, l1, _⟩ := alloc_spec o (s.get t) t.len
  obtain ⟨s1, c, hp1⟩ : ∃ s1 c, s.alloc (s.get t) t.len = (s1, c) := ⟨_, _, rfl⟩
  rw [hp1] at o1 hi1 ab1 f1 g1 l1
  dsimp only at o1 hi1 ab1 f1 g1 l1
  obtain ⟨o2, hi2, ab2, f2, g2, l2, oth⟩ := alloc_spec o1 [] 0
  obtain ⟨fc, gc, ne⟩ := oth c f1
  obtain ⟨s2, n, hp2⟩ : ∃ s2 n, s1.alloc [] 0 = (s2, n) := ⟨_, _, rfl⟩
  rw [hp2] at o2 hi2 ab2 f2 g2 l2 fc gc ne
  dsimp only at o2 hi2 ab2 f2 g2 l2 fc gc ne
  have e : s.push t = { s2.put s2.next ⟨c, 0, n⟩ (s2.next + 1) with order := s2.order ++ [s2.next], current := some s2.next } := by
    simp only [St.push, hp1, hp2]; rfl
  have op := put_own (n := s2.next + 1) o2 (by omega) (by omega) (fun i h1 h2 => by omega)
    (fits_fresh s2.next 0 fc f2 (fun h => ne h.symm))
  refine ⟨?_, ?_, by rw [e]; exact ab2.trans ab1⟩
  · rw [e]
    refine op.ptr _ _ ?_ ?_
    · intro x hx
      simp only [List.mem_append, List.mem_singleton] at hx
      show x < s2.next + 1
      rcases hx with hx | hx
      · have := o2.order x hx; omega
      · omega
    · intro x hx; cases hx; exact Nat.lt_succ_self _
  · rw [e, ← hi1, ← hi2]
    have ph := put_hist (s := s2) (x := s2.next) (n := s2.next + 1) (it := ⟨c, 0, n⟩) (by omega) (by omega) (fun i h1 h2 => by omega)
    have : ({ s2.put s2.next ⟨c, 0, n⟩ (s2.next + 1) with order := s2.order ++ [s2.next], current := some s2.next } : St).hist =
      { (s2.put s2.next ⟨c, 0, n⟩ (s2.next + 1)).hist with order := s2.order ++ [s2.next], current := some s2.next } := rfl
    rw [this, ph, gc, g1, g2]
    rfl

theorem setItem_eq_put (x : Nat) (it : HItem) : s.setItem x it = s.put x it s.next := rfl

theorem compact_spec (o : s.Own) : (s.compact limit).Own ∧ (s.compact limit).hist = s.hist.compact (hc limit) := by
  refine ⟨o.ptr _ _ (fun x hx => o.order x ?_) o.cur, rfl⟩
  rw [Hist.compactList_eq] at hx
  exact Hist.mem_keepNewest hx

/-- Writing the temporary text of entry `x`. -/
theorem tmp_spec (o : s.Own) {x v : Nat} (hx : x < s.next) {h' : Heap} {r : Slice}
    (k : Keeps (· = (s.elems x).tmp.arr) s.b.heap h') (rok : r.Ok h') (har : r.arr = (s.elems x).tmp.arr ∨ s.b.heap.next ≤ r.arr) :
    ({ s.setItem x ⟨(s.elems x).src, v, r⟩ with b := { s.b with heap := h' } } : St).Own ∧
    ({ s.setItem x ⟨(s.elems x).src, v, r⟩ with b := { s.b with heap := h' } } : St).hist =
      s.hist.setItem x ⟨(s.hist.elems x).source, v, h'.get r⟩ ∧
    ({ s.b with heap := h' } : Buf).abs = s.b.abs := by
  -- entry `x` with an empty text in place of the old one
  have hne : ∀ a, s.Owns a → a ≠ (s.elems x).tmp.arr → a ≠ r.arr := by
    intro a ha h1 h2
    rcases har with h | h
    · exact h1 (h2.trans h)
    · have := o.owned_lt ha; omega
  have g : ∀ {t : Slice}, t.Ok s.b.heap → t.arr ≠ (s.elems x).tmp.arr → h'.get t = s.b.heap.get t := fun ht hn => k.get ht hn
  have habs : ({ s.b with heap := h' } : Buf).abs = s.b.abs := by
    have h1 := g o.wf.buf (fun h => (o.buf x hx).2 h.symm)
    have h2 := g o.wf.kill (fun h => (o.kill x hx).2 h.symm)
    have h3 : (Option.map (fun p : Slice × Nat => (h'.get p.1, p.2)) s.b.bck) =
        Option.map (fun p : Slice × Nat => (s.b.heap.get p.1, p.2)) s.b.bck := by
      cases hb : s.b.bck with
      | none => rfl
      | some p => simp only [Option.map_some]; rw [g (o.wf.bck p hb) (fun h => (o.bck x p hx hb).2 h.symm)]
    simp only [Buf.abs, Buf.text]
    rw [h1, h2, h3]
  have key : ∀ i, (s.setItem x ⟨(s.elems x).src, v, r⟩).elems i = ⟨(s.elems x).src, v, r⟩ ∧ i = x ∨
      (s.setItem x ⟨(s.elems x).src, v, r⟩).elems i = s.elems i ∧ i ≠ x := by
    intro i
    by_cases h : i = x
    · exact .inl ⟨if_pos h, h⟩
    · exact .inr ⟨if_neg h, h⟩
  have own4 : ∀ {i}, i < s.next → s.Owns (s.elems i).src.arr ∧ s.Owns (s.elems i).tmp.arr := fun hi =>
    ⟨.inr (.inr (.inr ⟨_, hi, .inl rfl⟩)), .inr (.inr (.inr ⟨_, hi, .inr rfl⟩))⟩
  refine ⟨⟨⟨o.wf.buf.keep k, o.wf.kill.keep k, fun p hp => (o.wf.bck p hp).keep k, o.wf.sep, o.wf.sepB⟩, by rw [habs]; exact o.good,
    ?_, ?_, ?_, ?_, ?_, o.order, o.cur⟩, ?_, habs⟩
  · intro i hi
    show Slice.Ok h' ((s.setItem x _).elems i).src ∧ Slice.Ok h' ((s.setItem x _).elems i).tmp
    rcases key i with ⟨h, rfl⟩ | ⟨h, hn⟩ <;> rw [h]
    · exact ⟨(o.ok i hx).1.keep k, rok⟩
    · exact ⟨(o.ok i hi).1.keep k, (o.ok i hi).2.keep k⟩
  · intro i hi
    show ((s.setItem x _).elems i).src.arr ≠ _ ∧ ((s.setItem x _).elems i).tmp.arr ≠ _
    rcases key i with ⟨h, rfl⟩ | ⟨h, hn⟩ <;> rw [h]
    · exact ⟨(o.buf i hx).1, fun h => hne _ (.inl rfl) (fun h' => (o.buf i hx).2 h'.symm) h.symm⟩
    · exact o.buf i hi
  · intro i hi
    show ((s.setItem x _).elems i).src.arr ≠ _ ∧ ((s.setItem x _).elems i).tmp.arr ≠ _
    rcases key i with ⟨h, rfl⟩ | ⟨h, hn⟩ <;> rw [h]
    · exact ⟨(o.kill i hx).1, fun h => hne _ (.inr (.inl rfl)) (fun h' => (o.kill i hx).2 h'.symm) h.symm⟩
    · exact o.kill i hi
  · intro i p hi hp
    show ((s.setItem x _).elems i).src.arr ≠ _ ∧ ((s.setItem x _).elems i).tmp.arr ≠ _
    rcases key i with ⟨h, rfl⟩ | ⟨h, hn⟩ <;> rw [h]
    · exact ⟨(o.bck i p hx hp).1, fun h => hne _ (.inr (.inr (.inl ⟨p, hp, rfl⟩))) (fun h' => (o.bck i p hx hp).2 h'.symm) h.symm⟩
    · exact o.bck i p hi hp
  · intro i j hi hj
    show ((s.setItem x _).elems i).tmp.arr ≠ ((s.setItem x _).elems j).src.arr ∧
      (i ≠ j → ((s.setItem x _).elems i).tmp.arr ≠ ((s.setItem x _).elems j).tmp.arr)
    have hj : j < s.next := hj
    have hi : i < s.next := hi
    rcases key i with ⟨h, e⟩ | ⟨h, hn⟩ <;> rcases key j with ⟨h', e'⟩ | ⟨h', hn'⟩ <;> rw [h, h']
    · exact ⟨fun q => hne _ (own4 hx).1 (fun q' => (o.tmp x x hx hx).1 q'.symm) q.symm, fun q => (q (e.trans e'.symm)).elim⟩
    · exact ⟨fun q => hne _ (own4 hj).1 (fun q' => (o.tmp x j hx hj).1 q'.symm) q.symm,
        fun _ q => hne _ (own4 hj).2 (fun q' => (o.tmp x j hx hj).2 (fun z => hn' z.symm) q'.symm) q.symm⟩
    · exact ⟨(o.tmp i x hi hx).1, fun _ q => hne _ (own4 hi).2 ((o.tmp i x hi hx).2 hn) q⟩
    · exact o.tmp i j hi hj
  · have : ({ s.setItem x ⟨(s.elems x).src, v, r⟩ with b := { s.b with heap := h' } } : St).item =
        fun i => if i = x then ⟨(s.hist.elems x).source, v, h'.get r⟩ else s.item i := by
      funext i
      by_cases h : i = x
      · subst h
        rw [if_pos rfl]
        rw [item_lt (s := { s.setItem i ⟨(s.elems i).src, v, r⟩ with b := { s.b with heap := h' } }) hx]
        have he : (s.hist.elems i).source = s.get (s.elems i).src := by
          show (s.item i).source = _
          rw [St.item, if_pos hx]
        rw [he]
        show Item.mk (h'.get ((s.setItem i _).elems i).src) ((s.setItem i _).elems i).version (h'.get ((s.setItem i _).elems i).tmp) = _
        rw [show (s.setItem i ⟨(s.elems i).src, v, r⟩).elems i = ⟨(s.elems i).src, v, r⟩ from if_pos rfl]
        rw [g (o.ok i hx).1 (fun q => (o.tmp i i hx hx).1 q.symm)]
        rfl
      · rw [if_neg h]
        by_cases hl : i < s.next
        · rw [item_lt (s := { s.setItem x ⟨(s.elems x).src, v, r⟩ with b := { s.b with heap := h' } }) hl, item_lt hl]
          show Item.mk (Heap.get _ ((s.setItem x _).elems i).src) ((s.setItem x _).elems i).version (Heap.get _ ((s.setItem x _).elems i).tmp) = _
          rw [show (s.setItem x ⟨(s.elems x).src, v, r⟩).elems i = s.elems i from if_neg h]
          dsimp only
          rw [g (o.ok i hl).1 (fun q => (o.tmp x i hx hl).1 q.symm), g (o.ok i hl).2 ((o.tmp i x hl hx).2 h)]
          rfl
        · rw [item_ge (s := { s.setItem x ⟨(s.elems x).src, v, r⟩ with b := { s.b with heap := h' } }) hl, item_ge hl]
    show Hist.mk _ _ _ _ _ _ _ _ = Hist.mk _ _ _ _ _ _ _ _
    rw [this]
    rfl

/-- `Update`. -/
theorem update_spec (o : s.Own) (cm : Bool) :
    (s.update grow limit t cm).Own ∧ (s.update grow limit t cm).hist = s.hist.update (hc limit) (s.get t) cm ∧
    (s.update grow limit t cm).b.abs = s.b.abs := by
  obtain ⟨o1, hi1, ab1, f1, g1, l1, _⟩ := alloc_spec o (s.get t) t.len
  obtain ⟨s1, c, hp1⟩ : ∃ s1 c, s.alloc (s.get t) t.len = (s1, c) := ⟨_, _, rfl⟩
  rw [hp1] at o1 hi1 ab1 f1 g1 l1
  dsimp only at o1 hi1 ab1 f1 g1 l1
  have hcur : s1.hist.current = s1.current := rfl
  simp only [St.update, hp1, Hist.update, ← hi1, hcur]
  cases hc1 : s1.current with
  | none =>
    dsimp only
    obtain ⟨o2, hi2, ab2⟩ := push_spec (t := c) o1
    obtain ⟨o3, hi3⟩ := compact_spec (limit := limit) o2
    exact ⟨o3, by rw [hi3, hi2, g1], ab2.trans ab1⟩
  | some x =>
    dsimp only
    have hx := o1.cur x hc1
    have hit : s1.hist.elems x = ⟨s1.get (s1.elems x).src, (s1.elems x).version, s1.get (s1.elems x).tmp⟩ := if_pos hx
    cases cm with
    | true =>
      rw [if_pos rfl, if_pos rfl]
      have op := put_own (n := s1.next) o1 hx (Nat.le_refl _) (fun i h1 _ => h1) (fits_src o1 hx s1.ver f1)
      have hp := put_hist (n := s1.next) (s := s1) (it := ⟨c, s1.ver, (s1.elems x).tmp⟩) hx (Nat.le_refl _) (fun i h1 _ => h1)
      obtain ⟨o3, hi3⟩ := compact_spec (limit := limit) op
      refine ⟨o3, hi3.trans ?_, ab1⟩
      rw [hp, g1, hit, if_neg (by exact fun h => by cases h)]
      rfl
    | false =>
      rw [if_neg (by decide), if_neg (by decide)]
      have t0 : Slice.Ok s1.b.heap { (s1.elems x).tmp with len := 0 } :=
        ⟨(o1.ok x hx).2.arr, Nat.zero_le _, (o1.ok x hx).2.cap⟩
      have ap : Appended grow s1.b.heap { (s1.elems x).tmp with len := 0 } (s1.get c) := append_spec t0
      obtain ⟨o2, hi2, ab2⟩ := tmp_spec (v := s1.ver) o1 hx ap.keeps ap.ok ap.arr
      obtain ⟨o3, hi3⟩ := compact_spec (limit := limit) o2
      refine ⟨o3, hi3.trans ?_, ab2.trans ab1⟩
      rw [hi2, ap.get, g1, hit]
      simp [Heap.get]
      rfl

/-- `Clean` of the newest entry. -/
theorem cleanBack_spec (o : s.Own) {x : Nat} (hx : x < s.next) :
    (s.cleanBack x).Own ∧ (s.cleanBack x).hist = s.hist.cleanBack x ∧ (s.cleanBack x).b.abs = s.b.abs := by
  obtain ⟨o1, hi1, ab1, f1, g1, l1, _⟩ := alloc_spec o [] 0
  obtain ⟨s1, c, hp1⟩ : ∃ s1 c, s.alloc [] 0 = (s1, c) := ⟨_, _, rfl⟩
  rw [hp1] at o1 hi1 ab1 f1 g1 l1
  dsimp only at o1 hi1 ab1 f1 g1 l1
  obtain ⟨o2, hi2, ab2, f2, g2, l2, oth⟩ := alloc_spec o1 [] 0
  obtain ⟨fc, gc, ne⟩ := oth c f1
  obtain ⟨s2, n, hp2⟩ : ∃ s2 n, s1.alloc [] 0 = (s2, n) := ⟨_, _, rfl⟩
  rw [hp2] at o2 hi2 ab2 f2 g2 l2 fc gc ne
  dsimp only at o2 hi2 ab2 f2 g2 l2 fc gc ne
  have hx2 : x < s2.next := by
    have h1 := congrArg Hist.next hi1; have h2 := congrArg Hist.next hi2
    rw [show s2.next = s.next from h2.trans h1]; exact hx
  have e : s.cleanBack x = { (s2.put x ⟨c, (s2.elems x).version, n⟩ s2.next) with current := some x, ver := s2.ver + 1 } := by
    simp only [St.cleanBack, hp1, hp2]; rfl
  have op := put_own (n := s2.next) o2 hx2 (Nat.le_refl _) (fun i h1 _ => h1)
    (fits_fresh x (s2.elems x).version fc f2 (fun h => ne h.symm))
  have hp := put_hist (n := s2.next) (s := s2) (it := ⟨c, (s2.elems x).version, n⟩) hx2 (Nat.le_refl _) (fun i h1 _ => h1)
  have hit : s2.hist.elems x = ⟨s2.get (s2.elems x).src, (s2.elems x).version, s2.get (s2.elems x).tmp⟩ := if_pos hx2
  rw [e, ← hi1, ← hi2]
  refine ⟨op.ptr _ _ op.order (fun y hy => by cases hy; exact hx2), ?_, ab2.trans ab1⟩
  have : ({ (s2.put x ⟨c, (s2.elems x).version, n⟩ s2.next) with current := some x, ver := s2.ver + 1 } : St).hist =
    { (s2.put x ⟨c, (s2.elems x).version, n⟩ s2.next).hist with current := some x, ver := s2.ver + 1 } := rfl
  rw [this, hp, gc, g1, g2]
  simp only [Hist.cleanBack, hit, Item.clean]
  rfl

theorem commit_spec (o : s.Own) :
    Agree (fun h s' => St.Own s' ∧ s'.hist = h ∧ s'.b.abs = s.b.abs) (s.hist.commit (hc limit) (s.get t)) (s.commit grow limit t) := by
  have fin : ∀ (s1 : St) (u : Slice), s1.Own → s1.b.abs = s.b.abs →
      Agree (fun h s' => St.Own s' ∧ s'.hist = h ∧ s'.b.abs = s.b.abs)
        (.ok (Hist.push [] { s1.hist.update (hc limit) (s1.get u) true with
          ver := (s1.hist.update (hc limit) (s1.get u) true).ver + 1 }))
        (.ok (St.push (St.alloc { s1.update grow limit u true with ver := (s1.update grow limit u true).ver + 1 } [] 0).2
          (St.alloc { s1.update grow limit u true with ver := (s1.update grow limit u true).ver + 1 } [] 0).1)) := by
    intro s1 u o1 ab1
    obtain ⟨o2, hi2, ab2⟩ := update_spec (grow := grow) (limit := limit) (t := u) o1 true
    have o3 : ({ s1.update grow limit u true with ver := (s1.update grow limit u true).ver + 1 } : St).Own := o2.ptr _ _ o2.order o2.cur
    obtain ⟨o4, hi4, ab4, f4, g4, l4, _⟩ := alloc_spec o3 [] 0
    obtain ⟨o5, hi5, ab5⟩ := push_spec (t := (St.alloc { s1.update grow limit u true with ver := (s1.update grow limit u true).ver + 1 } [] 0).2) o4
    refine ⟨o5, ?_, ab5.trans (ab4.trans (ab2.trans ab1))⟩
    rw [hi5, hi4, g4, ← hi2]
    rfl
  simp only [Hist.commit, St.commit]
  rw [show s.hist.current = s.current from rfl, show s.hist.back = s.order.getLast? from rfl]
  by_cases hcb : s.current ≠ s.order.getLast?
  · rw [if_pos hcb, if_pos hcb]
    cases hc1 : s.current with
    | none => rfl
    | some x =>
      simp only [R.bind_ok]
      have hx := o.cur x hc1
      obtain ⟨o1, hi1, ab1, f1, g1, l1, _⟩ := alloc_spec o (s.get (s.elems x).tmp) (s.elems x).tmp.len
      have o2 : ({ (s.alloc (s.get (s.elems x).tmp) (s.elems x).tmp.len).1 with current := s.order.getLast? } : St).Own :=
        o1.ptr _ _ o1.order (fun y hy => o1.order y (List.mem_of_getLast? hy))
      have ht : (s.hist.elems x).tmp = s.get (s.elems x).tmp := by
        show (s.item x).tmp = _
        rw [item_lt hx]
      have := fin _ (s.alloc (s.get (s.elems x).tmp) (s.elems x).tmp.len).2 o2 ab1
      have hh : ({ (s.alloc (s.get (s.elems x).tmp) (s.elems x).tmp.len).1 with current := s.order.getLast? } : St).hist =
        { s.hist with current := s.order.getLast? } := by
        rw [← hi1]; rfl
      have hg : ({ (s.alloc (s.get (s.elems x).tmp) (s.elems x).tmp.len).1 with current := s.order.getLast? } : St).get
        (s.alloc (s.get (s.elems x).tmp) (s.elems x).tmp.len).2 = s.get (s.elems x).tmp := g1
      rw [hh, hg] at this
      rw [ht]
      exact this
  · rw [if_neg hcb, if_neg hcb]
    simp only [R.bind_ok]
    exact fin s t o rfl

theorem mem_backChain {x y : Nat} : ∀ {l acc : List Nat}, y ∈ Hist.backChain x l acc → y ∈ l ∨ y ∈ acc
  | [], _, h => by cases h
  | a :: l, acc, h => by
    simp only [Hist.backChain] at h
    split at h
    · exact .inr h
    · rcases mem_backChain h with h | h
      · exact .inl (List.mem_cons_of_mem _ h)
      · rcases List.mem_cons.1 h with h | h
        · exact .inl (h ▸ List.mem_cons_self)
        · exact .inr h

theorem mem_fwdChain {x y : Nat} : ∀ {l : List Nat}, y ∈ Hist.fwdChain x l → y ∈ l
  | [], h => by cases h
  | a :: l, h => by
    simp only [Hist.fwdChain] at h
    split at h
    · exact List.mem_cons_of_mem _ h
    · exact List.mem_cons_of_mem _ (mem_fwdChain h)

theorem repeatsNewest_spec (o : s.Own) (x : Nat) : s.repeatsNewest x t = s.hist.repeatsNewest x (s.get t) := by
  simp only [St.repeatsNewest, Hist.repeatsNewest]
  rw [show s.hist.elemPrev x = s.elemPrev x from rfl]
  cases hp : s.elemPrev x with
  | none => rfl
  | some p =>
    have hpm : p < s.next := by
      refine o.order p ?_
      have := List.mem_of_head? (show (Hist.backChain x s.order []).head? = some p from hp)
      rcases mem_backChain this with h | h
      · exact h
      · cases h
    show runesEqual _ _ = runesEqual _ (s.item p).source
    rw [item_lt hpm]

theorem new_spec (o : s.Own) (hl : t.len = (s.get t).length) :
    Agree (fun h s' => St.Own s' ∧ s'.hist = h ∧ s'.b.abs = s.b.abs) (s.hist.new (hc limit) (s.get t)) (s.new grow limit t) := by
  simp only [Hist.new, St.new]
  by_cases he : s.enable = false
  · rw [if_pos (show s.hist.enable = false from he), if_pos he]; exact ⟨o, rfl, rfl⟩
  · rw [if_neg (show ¬ s.hist.enable = false from he), if_neg he]
    obtain ⟨o1, hi1, ab1, f1, g1, l1, _⟩ := alloc_spec o (s.get t) t.len
    obtain ⟨s1, c, hp1⟩ : ∃ s1 c, s.alloc (s.get t) t.len = (s1, c) := ⟨_, _, rfl⟩
    rw [hp1] at o1 hi1 ab1 f1 g1 l1
    dsimp only at o1 hi1 ab1 f1 g1 l1
    rw [hp1]
    dsimp only
    rw [← hi1, ← g1, show s1.hist.back = s1.order.getLast? from rfl]
    have lift : ∀ {x y}, Agree (fun h s' => St.Own s' ∧ s'.hist = h ∧ s'.b.abs = s1.b.abs) x y →
        Agree (fun h s' => St.Own s' ∧ s'.hist = h ∧ s'.b.abs = s.b.abs) x y := by
      intro x y h; rw [← ab1]; exact h
    have hcl : c.len = (s1.get c).length := by rw [g1]; exact l1
    cases hb : s1.order.getLast? with
    | none =>
      dsimp only
      apply lift
      rw [← hcl]
      by_cases h0 : c.len = 0
      · rw [if_pos h0, if_pos h0]
        have o2 : ({ s1 with current := none } : St).Own := o1.ptr _ _ o1.order (fun _ h => by cases h)
        exact commit_spec (t := c) o2
      · rw [if_neg h0, if_neg h0]
        exact commit_spec (t := c) o1
    | some x =>
      dsimp only
      apply lift
      have hx : x < s1.next := o1.order x (List.mem_of_getLast? hb)
      rw [repeatsNewest_spec (t := c) o1 x, ← hcl]
      split
      · exact cleanBack_spec o1 hx
      · split
        · exact cleanBack_spec o1 hx
        · exact commit_spec (t := c) o1

/-- An editing command. -/
theorem cmd_spec (o : s.Own) (c : Cmd) (cap : Nat) (ht : ¬ s.b.abs.Trigger c) :
    Agree (fun e s' => St.Own s' ∧ s'.hist = s.hist ∧ Sim s'.b e) (c.core s.b.abs) (s.cmd grow c cap) := by
  obtain ⟨xs, hxs⟩ : ∃ xs, xs = St.argRunes c := ⟨_, rfl⟩
  obtain ⟨o1, hi1, ab1, f1, g1, l1, _⟩ := alloc_spec o xs cap
  obtain ⟨s1, t, hp1⟩ : ∃ s1 t, s.alloc xs cap = (s1, t) := ⟨_, _, rfl⟩
  rw [hp1] at o1 hi1 ab1 f1 g1 l1
  dsimp only at o1 hi1 ab1 f1 g1 l1
  have ecmd : s.cmd grow c cap = (s1.b.apply grow t c >>= fun b => .ok { s1 with b := b }) := by
    simp only [St.cmd]
    rw [← hxs, hp1]
  have hcar : Carries (s1.b.heap.get t) c := by
    have : s1.b.heap.get t = xs := g1
    rw [this, hxs]
    cases c <;> first | exact rfl | trivial
  have hap : Apart t s1.b := ⟨f1.ok, fun h => f1.own (.inl h), fun h => f1.own (.inr (.inl h)),
    fun p hp h => f1.own (.inr (.inr (.inl ⟨p, hp, h⟩)))⟩
  have hi : s1.b.idx ≤ s1.b.buf.len := by rw [← o1.wf.text]; exact o1.good.1
  have sim := apply_sim (grow := grow) o1.wf hi hap hcar
  rw [ecmd, ← hi1, ← ab1]
  obtain ⟨e, he, hg⟩ := core_good o1.good (by rw [ab1]; exact ht)
  rw [he] at sim ⊢
  cases hb : s1.b.apply grow t c with
  | error => rw [hb] at sim; cases sim
  | ok b =>
    rw [hb] at sim
    obtain ⟨sm, po⟩ : Sim b e ∧ Post t s1.b b := sim
    -- the arrays of the entries are neither the line's nor the argument's
    have nb : ∀ i, i < s1.next → ∀ a, (a = (s1.elems i).src.arr ∨ a = (s1.elems i).tmp.arr) → ¬ (a = s1.b.buf.arr ∨ a = t.arr) ∧ a < s1.b.heap.next := by
      intro i hi a ha
      refine ⟨?_, ?_⟩
      · rintro (h | h)
        · rcases ha with h' | h'
          · exact (o1.buf i hi).1 (h'.symm.trans h)
          · exact (o1.buf i hi).2 (h'.symm.trans h)
        · refine f1.own (.inr (.inr (.inr ⟨i, hi, ?_⟩)))
          rw [← h]; exact ha
      · rcases ha with h' | h' <;> rw [h']
        · exact (o1.ok i hi).1.arr
        · exact (o1.ok i hi).2.arr
    have nbuf : ∀ i, i < s1.next → ∀ a, (a = (s1.elems i).src.arr ∨ a = (s1.elems i).tmp.arr) → a ≠ b.buf.arr := by
      intro i hi a ha h
      obtain ⟨h1, h2⟩ := nb i hi a ha
      rcases po.buf with q | q | q | ⟨p, hp, q⟩
      · exact h1 (.inl (h.trans q))
      · exact h1 (.inr (h.trans q))
      · omega
      · rcases ha with h' | h'
        · exact (o1.bck i p hi hp).1 (h'.symm.trans (h.trans q))
        · exact (o1.bck i p hi hp).2 (h'.symm.trans (h.trans q))
    have nkill : ∀ i, i < s1.next → ∀ a, (a = (s1.elems i).src.arr ∨ a = (s1.elems i).tmp.arr) → a ≠ b.kill.arr := by
      intro i hi a ha h
      obtain ⟨h1, h2⟩ := nb i hi a ha
      rcases po.kill with q | q
      · rw [q] at h
        rcases ha with h' | h'
        · exact (o1.kill i hi).1 (h'.symm.trans h)
        · exact (o1.kill i hi).2 (h'.symm.trans h)
      · omega
    have nbck : ∀ i p, i < s1.next → b.bck = some p → ∀ a, (a = (s1.elems i).src.arr ∨ a = (s1.elems i).tmp.arr) → a ≠ p.1.arr := by
      intro i p hi hp a ha h
      obtain ⟨h1, h2⟩ := nb i hi a ha
      rcases po.bck with q | q
      · rw [q] at hp
        rcases ha with h' | h'
        · exact (o1.bck i p hi hp).1 (h'.symm.trans h)
        · exact (o1.bck i p hi hp).2 (h'.symm.trans h)
      · rw [q] at hp; cases hp
        exact h1 (.inl h)
    have hgood : b.abs.Good := by
      refine ⟨?_, ?_⟩
      · show b.idx ≤ b.text.length
        rw [sm.text, sm.idx]; exact hg.1
      · intro tb i hbk
        rcases po.bck with q | q
        · have : b.bck.map (fun p => (b.heap.get p.1, p.2)) = some (tb, i) := hbk
          rw [q] at this
          cases hb1 : s1.b.bck with
          | none => rw [hb1] at this; cases this
          | some p =>
            rw [hb1] at this
            simp only [Option.map_some, Option.some.injEq, Prod.mk.injEq] at this
            have hp2 := o1.good.2 (s1.b.heap.get p.1) p.2 (by show Option.map _ s1.b.bck = _; rw [hb1]; rfl)
            rw [← this.1, ← this.2]
            rw [(o1.wf.bck p hb1).length] at hp2
            rw [((o1.wf.bck p hb1).keep po.keeps).length]
            exact hp2
        · have : b.bck.map (fun p => (b.heap.get p.1, p.2)) = some (tb, i) := hbk
          rw [q] at this
          simp only [Option.map_some, Option.some.injEq, Prod.mk.injEq] at this
          rw [← this.1, ← this.2, (o1.wf.buf.keep po.keeps).length]
          exact hi
    have hist : ({ s1 with b := b } : St).hist = s1.hist := by
      have : ({ s1 with b := b } : St).item = s1.item := by
        funext i
        by_cases h : i < s1.next
        · rw [item_lt (s := { s1 with b := b }) h, item_lt h]
          show Item.mk (b.heap.get _) _ (b.heap.get _) = _
          rw [po.keeps.get (o1.ok i h).1 (nb i h _ (.inl rfl)).1, po.keeps.get (o1.ok i h).2 (nb i h _ (.inr rfl)).1]
          rfl
        · rw [item_ge (s := { s1 with b := b }) h, item_ge h]
      show Hist.mk _ _ _ _ _ _ _ _ = Hist.mk _ _ _ _ _ _ _ _
      rw [this]
    exact ⟨⟨po.wf, hgood, fun i hi => ⟨(o1.ok i hi).1.keep po.keeps, (o1.ok i hi).2.keep po.keeps⟩,
      fun i hi => ⟨nbuf i hi _ (.inl rfl), nbuf i hi _ (.inr rfl)⟩, fun i hi => ⟨nkill i hi _ (.inl rfl), nkill i hi _ (.inr rfl)⟩,
      fun i p hi hp => ⟨nbck i p hi hp _ (.inl rfl), nbck i p hi hp _ (.inr rfl)⟩, o1.tmp, o1.order, o1.cur⟩, hist, sm⟩

/-- Putting a new slice into the line. -/
theorem setLine_spec (o : s.Own) (f : Fresh t s) {i : Nat} (hi : i ≤ t.len) :
    (s.setLine t i).Own ∧ (s.setLine t i).hist = s.hist ∧ (s.setLine t i).b.text = s.get t := by
  refine ⟨⟨⟨f.ok, o.wf.kill, o.wf.bck, fun h => f.own (.inr (.inl h.symm)), o.wf.sepB⟩, ⟨?_, o.good.2⟩, o.ok, ?_, o.kill, o.bck, o.tmp, o.order,
    o.cur⟩, rfl, rfl⟩
  · show i ≤ (s.get t).length
    rw [show (s.get t).length = t.len from f.ok.length]; exact hi
  · exact fun j hj => ⟨fun h => f.own (.inr (.inr (.inr ⟨j, hj, .inl h.symm⟩))), fun h => f.own (.inr (.inr (.inr ⟨j, hj, .inr h.symm⟩)))⟩

theorem showItem_spec {x : Nat} (hx : x < s.next) : s.hist.showItem x = s.get (s.showItem x) := by
  simp only [Hist.showItem, St.showItem]
  rw [show s.hist.elems x = _ from item_lt hx, show s.hist.ver = s.ver from rfl]
  split <;> rfl

/-- Recalling entry `p`. -/
theorem recall_spec (o : s.Own) {p : Nat} (hp : p < s.next) :
    (({ (s.alloc (s.get (s.showItem p)) (s.showItem p).len).1 with current := some p } : St).setLine
      (s.alloc (s.get (s.showItem p)) (s.showItem p).len).2 (s.alloc (s.get (s.showItem p)) (s.showItem p).len).2.len).Own ∧
    (({ (s.alloc (s.get (s.showItem p)) (s.showItem p).len).1 with current := some p } : St).setLine
      (s.alloc (s.get (s.showItem p)) (s.showItem p).len).2 (s.alloc (s.get (s.showItem p)) (s.showItem p).len).2.len).hist =
        { s.hist with current := some p } ∧
    Sim (({ (s.alloc (s.get (s.showItem p)) (s.showItem p).len).1 with current := some p } : St).setLine
      (s.alloc (s.get (s.showItem p)) (s.showItem p).len).2 (s.alloc (s.get (s.showItem p)) (s.showItem p).len).2.len).b
      { s.b.abs with buf := s.hist.showItem p, idx := (s.hist.showItem p).length } := by
  obtain ⟨o1, hi1, ab1, f1, g1, l1, _⟩ := alloc_spec o (s.get (s.showItem p)) (s.showItem p).len
  have hn : (s.alloc (s.get (s.showItem p)) (s.showItem p).len).1.next = s.next := rfl
  have o2 : ({ (s.alloc (s.get (s.showItem p)) (s.showItem p).len).1 with current := some p } : St).Own :=
    o1.ptr _ _ o1.order (fun y hy => by cases hy; exact hp)
  obtain ⟨a, b, c⟩ := setLine_spec (i := (s.alloc (s.get (s.showItem p)) (s.showItem p).len).2.len) o2 ⟨f1.ok, f1.own⟩ (Nat.le_refl _)
  refine ⟨a, ?_, ⟨c.trans ?_, ?_, ?_⟩⟩
  · rw [b, ← hi1]; rfl
  · rw [showItem_spec hp]; exact g1
  · show _ = (s.hist.showItem p).length
    rw [showItem_spec hp, ← l1]; rfl
  · exact congrArg Ed.lastKill ab1

/-- `Reset` of the line. -/
theorem resetBuf_spec (o : s.Own) :
    s.resetBuf.1.Own ∧ s.resetBuf.1.hist = s.hist ∧ Sim s.resetBuf.1.b { s.b.abs with buf := [], idx := 0 } ∧
    s.resetBuf.1.get s.resetBuf.2 = s.b.text ∧ s.resetBuf.2.Ok s.resetBuf.1.b.heap := by
  obtain ⟨o1, hi1, ab1, f1, g1, l1, _⟩ := alloc_spec o s.b.text s.b.buf.len
  obtain ⟨s1, t, hp1⟩ : ∃ s1 t, s.alloc s.b.text s.b.buf.len = (s1, t) := ⟨_, _, rfl⟩
  rw [hp1] at o1 hi1 ab1 f1 g1 l1
  dsimp only at o1 hi1 ab1 f1 g1 l1
  simp only [St.resetBuf, hp1]
  refine ⟨⟨⟨⟨o1.wf.buf.arr, Nat.zero_le _, o1.wf.buf.cap⟩, o1.wf.kill, o1.wf.bck, o1.wf.sep, o1.wf.sepB⟩, ⟨Nat.zero_le _, o1.good.2⟩, o1.ok,
    o1.buf, o1.kill, o1.bck, o1.tmp, o1.order, o1.cur⟩, hi1, ⟨by simp [Buf.text, Heap.get], rfl, congrArg Ed.lastKill ab1⟩, g1, f1.ok⟩

/-- The steps that do not put a slice of the history into the line, and do not leave the line (C07). -/
def Act.Safe (s : St) : Act → Prop
  | .cmd c _ => ¬ s.b.abs.Trigger c
  | .found _ _ => False
  | .unfound _ => False
  | _ => True

/-- The result of a step is that of the same step on values. -/
def Refines (v : V) (s : St) : Prop := s.Own ∧ s.hist = v.h ∧ Sim s.b v.e

theorem agree_ok {α β} {P : α → β → Prop} {x : R α} {y : R β} {a : α} (h : Agree P x y) (hx : x = .ok a) : ∃ b, y = .ok b ∧ P a b := by
  subst hx
  cases y with
  | error => cases h
  | ok b => exact ⟨b, rfl, h⟩

theorem step_refines (o : s.Own) {a : Act} (ha : a.Safe s) :
    Agree Refines (a.value limit ⟨s.b.abs, s.hist⟩) (a.run grow limit s) := by
  cases a with
  | cmd c cap =>
    have := cmd_spec (grow := grow) o c cap ha
    simp only [Act.value, Act.run]
    cases hv : c.core s.b.abs with
    | error =>
      rw [hv] at this
      cases hr : s.cmd grow c cap with
      | error => rw [hr] at this; exact this
      | ok => rw [hr] at this; cases this
    | ok e =>
      rw [hv] at this
      obtain ⟨s', h1, h2, h3, h4⟩ := agree_ok this rfl
      rw [h1]
      exact ⟨h2, h3, h4⟩
  | up =>
    simp only [Act.value, Act.run, Hist.prev, St.prev]
    rw [show s.hist.current = s.current from rfl]
    cases hc1 : s.current with
    | none => exact ⟨o, rfl, rfl, rfl, rfl⟩
    | some c =>
      dsimp only
      rw [show s.hist.elemPrev c = s.elemPrev c from rfl]
      cases hp : s.elemPrev c with
      | none => exact ⟨o, rfl, rfl, rfl, rfl⟩
      | some p =>
        have hpm : p < s.next := by
          refine o.order p ?_
          rcases mem_backChain (List.mem_of_head? (show (Hist.backChain c s.order []).head? = some p from hp)) with h | h
          · exact h
          · cases h
        obtain ⟨h1, h2, h3⟩ := recall_spec o hpm
        exact ⟨h1, h2, h3⟩
  | down =>
    simp only [Act.value, Act.run, Hist.nextLine, St.nextLine]
    rw [show s.hist.current = s.current from rfl]
    cases hc1 : s.current with
    | none => exact ⟨o, rfl, rfl, rfl, rfl⟩
    | some c =>
      dsimp only
      rw [show s.hist.elemNext c = s.elemNext c from rfl]
      cases hp : s.elemNext c with
      | none => exact ⟨o, rfl, rfl, rfl, rfl⟩
      | some p =>
        have hpm : p < s.next :=
          o.order p (mem_fwdChain (List.mem_of_head? (show (Hist.fwdChain c s.order).head? = some p from hp)))
        obtain ⟨h1, h2, h3⟩ := recall_spec o hpm
        exact ⟨h1, h2, h3⟩
  | note =>
    obtain ⟨o1, hi1, ab1, f1, g1, l1, _⟩ := alloc_spec o s.b.text s.b.buf.len
    obtain ⟨s1, t, hp1⟩ : ∃ s1 t, s.alloc s.b.text s.b.buf.len = (s1, t) := ⟨_, _, rfl⟩
    rw [hp1] at o1 hi1 ab1 f1 g1 l1
    dsimp only at o1 hi1 ab1 f1 g1 l1
    simp only [Act.value, Act.run, hp1]
    obtain ⟨o2, hi2, ab2⟩ := update_spec (grow := grow) (limit := limit) (t := t) o1 false
    have ab := ab2.trans ab1
    refine ⟨o2, ?_, congrArg Ed.buf ab, congrArg Ed.idx ab, congrArg Ed.lastKill ab⟩
    rw [hi2, hi1, g1]; rfl
  | submit unique keep =>
    simp only [Act.value, Act.run]
    obtain ⟨s1, e1, o1, hi1, sm1⟩ := agree_ok (cmd_spec (grow := grow) o .toEnd 0 (by simp [Ed.Trigger])) rfl
    simp only [e1, R.bind_ok]
    have hk1 : s1.b.heap.get s1.b.kill = s.b.abs.lastKill := sm1.kill
    have ht1 : s1.b.text = s.b.text := sm1.text
    have hx1 : s1.b.idx = s.b.text.length := sm1.idx
    -- what remains after the text has been taken out
    have fin : ∀ (s2 : St), s2.Own → s2.hist = s.hist → s2.b.heap.get s2.b.kill = s.b.abs.lastKill → ∀ n, 
        s2.b.text.take n = s.b.text → n ≤ s2.b.text.length →
        Agree Refines (do
            let h ← if keep then s.hist.new (hc limit) s.b.abs.buf else .ok s.hist
            .ok ⟨{ s.b.abs with buf := [], idx := 0 }, h⟩)
          (if keep then s2.resetBuf.1.new grow limit { s2.resetBuf.2 with len := n } else .ok s2.resetBuf.1) := by
      intro s2 o2 hi2 hk2 n hn hle
      obtain ⟨o3, hi3, sm3, g3, f3⟩ := resetBuf_spec o2
      have hl3 : s2.resetBuf.2.len = s2.b.text.length := by rw [← g3]; exact f3.length.symm
      have g4 : s2.resetBuf.1.get { s2.resetBuf.2 with len := n } = s.b.text := by
        rw [← hn, ← g3]
        simp only [St.get, Heap.get, List.take_take]
        rw [Nat.min_eq_left (by omega)]
      have smf : ∀ s4 : St, s4.b.abs = s2.resetBuf.1.b.abs → Sim s4.b { s.b.abs with buf := [], idx := 0 } := by
        intro s4 h4
        exact ⟨(congrArg Ed.buf h4).trans sm3.text, (congrArg Ed.idx h4).trans sm3.idx, (congrArg Ed.lastKill h4).trans (sm3.kill.trans hk2)⟩
      cases keep with
      | false => exact ⟨o3, hi3.trans hi2, smf _ rfl⟩
      | true =>
        have nw := new_spec (grow := grow) (limit := limit) (t := { s2.resetBuf.2 with len := n }) o3 (by
          rw [g4, ← hn]; simp; omega)
        rw [g4, hi3, hi2] at nw
        rw [if_pos rfl, if_pos rfl]
        show Agree Refines ((s.hist.new (hc limit) s.b.text) >>= _) _
        cases hv : s.hist.new (hc limit) s.b.text with
        | error =>
          rw [hv] at nw
          cases hr : s2.resetBuf.1.new grow limit { s2.resetBuf.2 with len := n } with
          | error => rw [hr] at nw; exact nw
          | ok => rw [hr] at nw; cases nw
        | ok h =>
          rw [hv] at nw
          obtain ⟨s4, h1, h2, h3, h4⟩ := agree_ok nw rfl
          rw [h1]
          exact ⟨h2, h3, smf s4 h4⟩
    cases unique with
    | true =>
      have := fin s1 o1 hi1 hk1 s1.b.text.length (by rw [List.take_length, ht1]) (Nat.le_refl _)
      have hl : s1.resetBuf.2.len = s1.b.text.length := by
        obtain ⟨_, _, _, g3, f3⟩ := resetBuf_spec o1
        rw [← g3]; exact f3.length.symm
      rw [← hl] at this
      exact this
    | false =>
      have sp := cmd_spec (grow := grow) o1 (.insert [10]) 1 (by simp [Ed.Trigger])
      have hci : s1.b.abs.CursorIn := o1.good.1
      obtain ⟨s2, e2, o2, hi2, sm2⟩ := agree_ok sp (by
        show writeRunesC [10] s1.b.abs = _
        rw [writeRunesC, sliceFrom_ok hci, sliceTo_ok hci]; rfl)
      simp only [Bool.false_eq_true, if_false, e2, R.bind_ok]
      have ht2 : s2.b.text = s.b.text ++ [10] := by
        rw [sm2.text]
        show List.take s1.b.idx s1.b.text ++ ([10] ++ List.drop s1.b.idx s1.b.text) = _
        rw [ht1, hx1]; simp
      have hl : s2.resetBuf.2.len = s2.b.text.length := by
        obtain ⟨_, _, _, g3, f3⟩ := resetBuf_spec o2
        rw [← g3]; exact f3.length.symm
      have := fin s2 o2 (hi2.trans hi1) (sm2.kill.trans hk1) (s2.b.text.length - 1) (by rw [ht2]; simp) (by omega)
      rw [← hl] at this
      exact this
  | drop hint =>
    simp only [Act.value, Act.run]
    obtain ⟨s1, e1, o1, hi1, sm1⟩ := agree_ok (cmd_spec (grow := grow) o .toEnd 0 (by simp [Ed.Trigger])) rfl
    have hci : s1.b.abs.CursorIn := o1.good.1
    obtain ⟨s2, e2, o2, hi2, sm2⟩ := agree_ok (cmd_spec (grow := grow) o1 (.insert hint) hint.length (by simp [Ed.Trigger])) (by
        show writeRunesC hint s1.b.abs = _
        rw [writeRunesC, sliceFrom_ok hci, sliceTo_ok hci]; rfl)
    simp only [e1, e2, R.bind_ok]
    obtain ⟨o3, hi3, sm3, _, _⟩ := resetBuf_spec o2
    refine ⟨o3.ptr _ _ o3.order (fun x hx => o3.order x (List.mem_of_getLast? hx)), ?_, sm3.text, sm3.idx, ?_⟩
    · show s2.resetBuf.1.revert.hist = s.hist.revert
      rw [← hi1, ← hi2, ← hi3]; rfl
    · exact sm3.kill.trans (sm2.kill.trans sm1.kill)
  | save xs =>
    obtain ⟨o1, hi1, ab1, f1, g1, l1, _⟩ := alloc_spec o xs xs.length
    obtain ⟨s1, t, hp1⟩ : ∃ s1 t, s.alloc xs xs.length = (s1, t) := ⟨_, _, rfl⟩
    rw [hp1] at o1 hi1 ab1 f1 g1 l1
    dsimp only at o1 hi1 ab1 f1 g1 l1
    simp only [Act.value, Act.run, hp1]
    have nw := new_spec (grow := grow) (limit := limit) (t := t) o1 (by rw [g1]; exact l1)
    rw [g1, hi1] at nw
    cases hv : s.hist.new (hc limit) xs with
    | error =>
      rw [hv] at nw
      cases hr : s1.new grow limit t with
      | error => rw [hr] at nw; exact nw
      | ok => rw [hr] at nw; cases nw
    | ok h =>
      rw [hv] at nw
      obtain ⟨s4, h1, h2, h3, h4⟩ := agree_ok nw rfl
      rw [h1]
      have ab := h4.trans ab1
      exact ⟨h2, h3, congrArg Ed.buf ab, congrArg Ed.idx ab, congrArg Ed.lastKill ab⟩
  | reset => exact ⟨o.ptr _ _ (fun _ h => by cases h) (fun _ h => by cases h), rfl, rfl, rfl, rfl⟩
  | enable on => exact ⟨o.ptr _ _ o.order o.cur, rfl, rfl, rfl, rfl⟩
  | found x i => cases ha
  | unfound x => cases ha

theorem init_own : St.init.Own where
  wf := ⟨⟨by decide, by decide, by decide⟩, ⟨by decide, by decide, by decide⟩, (fun _ h => nomatch h), by decide, (fun _ h => nomatch h)⟩
  good := ⟨Nat.le_refl _, fun _ _ h => by cases h⟩
  ok i h := by cases h
  buf i h := by cases h
  kill i h := by cases h
  bck i _ h := by cases h
  tmp i _ h := by cases h
  order x h := by cases h
  cur x h := by cases h

end RL.Mem
