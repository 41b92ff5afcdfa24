import Verif.Proofs.HeapHist
import Verif.Proofs.Keys
/-! # Runs over slices in memory -/

namespace RL.Mem
open RL Ed

theorem bind_map {α β γ} {x : R α} {f : α → R γ} {f' : α → R β} {g : β → γ} (h : ∀ a, f a = Except.map g (f' a)) :
    (x >>= f) = Except.map g (x >>= f') := by
  cases x with
  | error => rfl
  | ok a => exact h a

theorem core_bck {c : Cmd} (h1 : c ≠ .backup) (h2 : c ≠ .restore) (e : Ed) (x) :
    c.core { e with bck := x } = (c.core e).map (fun e' => { e' with bck := x }) := by
  have snd : ∀ {y : R (Bool × Ed)} {z : R (Bool × Ed)}, z = y.map (fun p => (p.1, { p.2 with bck := x })) →
      ((·.2) <$> z : R Ed) = ((·.2) <$> y : R Ed).map (fun e' => { e' with bck := x }) := by
    intro y z h
    subst h
    cases y <;> rfl
  cases c <;> simp only [Cmd.core] <;> try exact snd (by
      simp only [Ed.deleteC, Ed.moveToC]
      repeat' (first | rfl | (apply bind_map; intro _) | split))
  case backup => exact absurd rfl h1
  case restore => exact absurd rfl h2
  case transpose =>
    simp only [Ed.transposeC]
    by_cases h : e.buf.length = 1
    · simp only [h, if_true]; rfl
    · simp only [h, if_false]
      split
      · rfl
      · split
        · repeat' (first | rfl | (apply bind_map; intro _) | split)
        · split <;> repeat' (first | rfl | (apply bind_map; intro _) | split)
  case endWord =>
    simp only [Ed.moveToEndWordC]
    split
    · rfl
    · apply bind_map; intro a
      cases hb : isWordBreak a
      · simp only [Bool.not_false, if_true, bind_assoc]
        apply bind_map; intro b
        split <;> simp only [R.bind_ok] <;> split <;> rfl
      · simp only [Bool.not_true, Bool.false_eq_true, if_false, R.bind_ok]
        split <;> rfl
  all_goals
    simp only [Ed.writeRunesC, Ed.backspaceC, Ed.moveBackwardC, Ed.moveForwardC, Ed.moveToLineStartC, Ed.moveToLineEndC, Ed.killC,
      Ed.killFrontC, Ed.eraseC, Ed.yankC, Ed.deleteWordC, Ed.backEscapeWordC, Ed.moveToPrevWordC, Ed.moveToNextWordC,
      Ed.replaceC, Ed.setWithIdxC, Ed.pushKill]
    try (repeat' (first | rfl | (apply bind_map; intro _) | split))

theorem value_bck {limit : Int} {a : Act} (h1 : ∀ cap, a ≠ .cmd .backup cap) (h2 : ∀ cap, a ≠ .cmd .restore cap) (v : V) (x) :
    a.value limit ⟨{ v.e with bck := x }, v.h⟩ = (a.value limit v).map (fun v' => ⟨{ v'.e with bck := x }, v'.h⟩) := by
  cases a <;> simp only [Act.value]
  case cmd c cap =>
    rw [core_bck (fun h => h1 cap (by rw [h])) (fun h => h2 cap (by rw [h]))]
    cases c.core v.e <;> rfl
  case up => split <;> rfl
  case down => split <;> rfl
  case submit u keep =>
    cases keep with
    | false => rfl
    | true => show (v.h.new (hc limit) v.e.buf >>= _) = Except.map _ (v.h.new (hc limit) v.e.buf >>= _); cases v.h.new (hc limit) v.e.buf <;> rfl
  case save xs => cases v.h.new (hc limit) xs <;> rfl
  all_goals rfl

variable {grow : Nat → Nat → Nat} {limit : Int} {s s' : St} {v v' : V}

/-- What is known about the value state is enough to follow a step. -/
theorem refines_step (r : Refines v s) {a : Act} (ha : a.Plain v) : Agree Refines (a.value limit v) (a.run grow limit s) := by
  obtain ⟨o, hh, sm⟩ := r
  have hv : (⟨{ s.b.abs with bck := v.e.bck }, s.hist⟩ : V) = v := by
    obtain ⟨⟨b, i, k, bk⟩, h⟩ := v
    have h1 := sm.text; have h2 := sm.idx; have h3 := sm.kill
    simp only at h1 h2 h3 hh
    subst hh h1 h2 h3
    rfl
  have hsafe : a.Safe s := by
    cases a <;> try exact ha
    case cmd c cap =>
      have ht : ¬ v.e.Trigger c := ha.2.2
      rw [← hv] at ht
      show ¬ s.b.abs.Trigger c
      cases c <;> exact ht
  have st := step_refines (grow := grow) (limit := limit) o hsafe
  have vb := value_bck (limit := limit) (a := a) (fun cap h => by subst h; exact ha.1 rfl) (fun cap h => by subst h; exact ha.2.1 rfl)
    ⟨s.b.abs, s.hist⟩ v.e.bck
  rw [show (⟨{ (⟨s.b.abs, s.hist⟩ : V).e with bck := v.e.bck }, (⟨s.b.abs, s.hist⟩ : V).h⟩ : V) = v from hv] at vb
  rw [vb]
  cases hx : a.value limit ⟨s.b.abs, s.hist⟩ with
  | error =>
    rw [hx] at st
    cases hr : a.run grow limit s with
    | error => rw [hr] at st; exact st
    | ok => rw [hr] at st; cases st
  | ok v1 =>
    rw [hx] at st
    obtain ⟨s1, h1, h2, h3, h4⟩ := agree_ok st rfl
    rw [h1]
    exact ⟨h2, h3, ⟨h4.text, h4.idx, h4.kill⟩⟩

theorem refines_run : ∀ (as : List Act) {v : V} {s : St}, Refines v s → Follows limit as v →
    Agree Refines (runValues limit as v) (runActs grow limit as s)
  | [], v, s, r, _ => r
  | a :: as, v, s, r, hf => by
    have st := refines_step (grow := grow) (limit := limit) r hf.1
    simp only [runValues, runActs]
    cases hx : a.value limit v with
    | error =>
      rw [hx] at st
      cases hr : a.run grow limit s with
      | error => rw [hr] at st; exact st
      | ok => rw [hr] at st; cases st
    | ok v1 =>
      rw [hx] at st
      obtain ⟨s1, h1, h2⟩ := agree_ok st rfl
      rw [h1]
      exact refines_run as h2 (hf.2 v1 hx)

theorem init_refines : Refines V.init St.init := by
  refine ⟨init_own, ?_, rfl, rfl, rfl⟩
  simp only [St.hist, V.init]
  congr 1

/-! ### A saved slice -/

theorem get_alloc {h : Heap} {t : Slice} (o : t.Ok h) (xs : List Rune) (cap : Nat) : (h.alloc xs cap).1.get t = h.get t :=
  (alloc_keeps (A := fun _ => False) cap).get o (fun h => h)

/-- Writing behind a slice. -/
theorem get_store {h : Heap} {t : Slice} {a pos : Nat} {xs : List Rune} (o : t.Ok h) (hp : t.arr = a → t.off + t.len ≤ pos) :
    (h.store a pos xs).get t = h.get t := by
  simp only [Heap.get, Heap.store]
  split
  · next e =>
    have h1 := o.len; have h2 := o.cap
    have h3 := hp e
    rw [e] at h2 ⊢
    rw [List.append_assoc, List.drop_append_of_le_length (by simp; omega), List.take_append_of_le_length (by simp; omega),
      List.drop_take, List.take_take, Nat.min_eq_left (by omega)]
  · rfl

/-- `append` behind a slice. -/
theorem get_append {h : Heap} {t a : Slice} {xs : List Rune} (o : t.Ok h) (hp : t.arr = a.arr → t.off + t.len ≤ a.off + a.len) :
    (h.append grow a xs).1.get t = h.get t := by
  simp only [Heap.append]
  split
  · exact get_store o hp
  · exact get_alloc o _ _

theorem append_where (h : Heap) (a : Slice) (xs : List Rune) :
    ((h.append grow a xs).2.arr = a.arr ∧ (h.append grow a xs).2.off = a.off) ∨ h.next ≤ (h.append grow a xs).2.arr := by
  simp only [Heap.append]
  split
  · exact .inl ⟨rfl, rfl⟩
  · exact .inr (Nat.le_refl _)

theorem upTo_inv {a u : Slice} {n : Nat} (h : a.upTo n = .ok u) : u.arr = a.arr ∧ u.off = a.off ∧ u.len = n := by
  simp only [Slice.upTo, Slice.sub] at h
  split at h
  · cases h; exact ⟨rfl, rfl, rfl⟩
  · cases h

variable {b b' : Buf} {t u : Slice}

/-- Where the line is after an edit. -/
def Stays (b b' : Buf) : Prop := (b'.buf.arr = b.buf.arr ∧ b'.buf.off = b.buf.off) ∨ b.heap.next ≤ b'.buf.arr

theorem cut_saved {i j : Nat} (o : t.Ok b.heap) (h : b.cut grow i j = .ok b') :
    b'.bck = b.bck ∧ Stays b b' ∧ ((t.arr = b.buf.arr → t.off = b.buf.off ∧ t.len ≤ i) → b'.heap.get t = b.heap.get t) := by
  simp only [Buf.cut] at h
  obtain ⟨hd, h1, h⟩ := R.bind_inv h
  obtain ⟨tl, h2, h⟩ := R.bind_inv h
  cases h
  obtain ⟨a1, a2, a3⟩ := upTo_inv h1
  refine ⟨rfl, ?_, fun hp => get_append o (fun e => ?_)⟩
  · rcases append_where (grow := grow) b.heap hd (b.heap.get tl) with ⟨e1, e2⟩ | e
    · exact .inl ⟨e1.trans a1, e2.trans a2⟩
    · exact .inr e
  · have := hp (e.trans a1); omega

theorem pushCut_saved {i j : Nat} (o : t.Ok b.heap) (h : (b.pushKill grow u).cut grow i j = .ok b') :
    b'.bck = b.bck ∧ Stays b b' ∧ ((t.arr = b.buf.arr → t.off = b.buf.off ∧ t.len ≤ i) → b'.heap.get t = b.heap.get t) := by
  obtain ⟨h1, h2, h3⟩ := cut_saved (t := t) (o.keep (alloc_keeps (A := fun _ => False) _)) h
  refine ⟨h1, ?_, fun hp => (h3 hp).trans (get_alloc o _ _)⟩
  rcases h2 with h | h
  · exact .inl h
  · exact .inr (by have : b.heap.next + 1 ≤ b'.buf.arr := h; omega)

theorem killC_saved (o : t.Ok b.heap) (h : b.killC grow = .ok b') :
    b'.bck = b.bck ∧ Stays b b' ∧ b'.heap.get t = b.heap.get t := by
  simp only [Buf.killC] at h
  obtain ⟨k, h1, h⟩ := R.bind_inv h
  obtain ⟨tl, h2, h⟩ := R.bind_inv h
  cases h
  obtain ⟨a1, a2, a3⟩ := upTo_inv h2
  exact ⟨rfl, .inl ⟨a1, a2⟩, get_alloc o _ _⟩

/-- An edit that starts behind a saved slice of the line, or happens in another array, does not change it. -/
theorem apply_saved {c : Cmd} (w : b.WF) (hs : Apart u b) (ot : t.Ok b.heap) (hu : t.arr ≠ u.arr) (h1 : c ≠ .backup) (h2 : c ≠ .restore)
    (h : b.apply grow u c = .ok b') :
    b'.bck = b.bck ∧ (Stays b b' ∨ b'.buf.arr = u.arr) ∧
    ((t.arr = b.buf.arr → t.off = b.buf.off ∧ Behind t.len b.abs c) → b'.heap.get t = b.heap.get t) ∧
    (Moves b.abs c → t.arr ≠ b'.buf.arr) := by
  have stay : Stays b b := .inl ⟨rfl, rfl⟩
  have hbl : b.abs.buf.length = b.buf.len := w.text
  have nomove : ¬ Moves b.abs c → (Moves b.abs c → t.arr ≠ b'.buf.arr) := fun h h' => absurd h' h
  cases c <;> simp only [Buf.apply] at h
  case backup => exact absurd rfl h1
  case restore => exact absurd rfl h2
  case left | right | home | toEnd | prevWord | nextWord | endWord | moveTo =>
    obtain ⟨e, _, h⟩ := R.bind_inv h
    cases h
    exact ⟨rfl, .inl stay, fun _ => rfl, nomove id⟩
  case insert ys =>
    obtain ⟨tl, e1, h⟩ := R.bind_inv h
    obtain ⟨hd, e2, h⟩ := R.bind_inv h
    cases h
    obtain ⟨a1, a2, a3⟩ := upTo_inv e2
    refine ⟨rfl, .inl ?_, fun hp => ?_, nomove id⟩
    · rcases append_where (grow := grow) (b.heap.append grow u (b.heap.get tl)).1 hd
        ((b.heap.append grow u (b.heap.get tl)).1.get (b.heap.append grow u (b.heap.get tl)).2) with ⟨q1, q2⟩ | q
      · exact .inl ⟨q1.trans a1, q2.trans a2⟩
      · have := (append_spec (grow := grow) (xs := b.heap.get tl) hs.ok).keeps.next
        exact .inr (Nat.le_trans this q)
    · refine (get_append (ot.keep (append_spec (grow := grow) (xs := b.heap.get tl) hs.ok).keeps) (fun e => ?_)).trans
        (get_append ot (fun e => absurd e hu))
      obtain ⟨p1, p2⟩ := hp (e.trans a1)
      have p2 : t.len ≤ b.idx := p2
      omega
  case set ys =>
    cases h
    exact ⟨rfl, .inr rfl, fun _ => rfl, fun _ => hu⟩
  case backspace =>
    split at h
    · cases h; exact ⟨rfl, .inl stay, fun _ => rfl, nomove id⟩
    · next h0 =>
      obtain ⟨q1, q2, q3⟩ := cut_saved (t := t) (b := { b with idx := b.idx - 1 }) ot h
      refine ⟨q1, .inl q2, fun hp => q3 (fun e => ?_), nomove id⟩
      obtain ⟨p1, p2⟩ := hp e
      have p2 : b.idx = 0 ∨ t.len < b.idx := p2
      exact ⟨p1, by omega⟩
  case delete =>
    split at h
    · cases h; exact ⟨rfl, .inl stay, fun _ => rfl, nomove id⟩
    · next h0 =>
      obtain ⟨k, ek, h⟩ := R.bind_inv h
      obtain ⟨q1, q2, q3⟩ := pushCut_saved (t := t) ot h
      refine ⟨q1, .inl q2, fun hp => q3 (fun e => ?_), nomove id⟩
      obtain ⟨p1, p2⟩ := hp e
      have p2 : b.idx = b.abs.buf.length ∨ t.len ≤ b.idx := p2
      exact ⟨p1, by omega⟩
  case kill =>
    obtain ⟨q1, q2, q3⟩ := killC_saved (t := t) ot h
    exact ⟨q1, .inl q2, fun _ => q3, nomove id⟩
  case erase =>
    obtain ⟨k, ek, h⟩ := R.bind_inv h
    cases h
    obtain ⟨a1, a2, a3⟩ := upTo_inv ek
    exact ⟨rfl, .inl (.inl ⟨a1, a2⟩), fun _ => get_alloc ot _ _, nomove id⟩
  case killFront =>
    split at h
    · cases h; exact ⟨rfl, .inl stay, fun _ => rfl, nomove id⟩
    · next h0 =>
      obtain ⟨k, ek, h⟩ := R.bind_inv h
      obtain ⟨d, ed, h⟩ := R.bind_inv h
      obtain ⟨tl, et, h⟩ := R.bind_inv h
      cases h
      obtain ⟨a1, a2, a3⟩ := upTo_inv ed
      refine ⟨rfl, .inl (.inl ⟨a1, a2⟩), fun hp => ?_, nomove id⟩
      refine (get_store (ot.keep (alloc_keeps (A := fun _ => False) _)) (fun e => ?_)).trans (get_alloc ot (b.heap.get k) _)
      obtain ⟨p1, p2⟩ := hp (e.trans a1)
      have p2 : b.idx = 0 := p2
      omega
  case deleteWord =>
    split at h
    · cases h; exact ⟨rfl, .inl stay, fun _ => rfl, nomove id⟩
    · next h0 =>
      split at h
      · obtain ⟨k, ek, h⟩ := R.bind_inv h
        obtain ⟨q1, q2, q3⟩ := pushCut_saved (t := t) ot h
        refine ⟨q1, .inl q2, fun hp => q3 (fun e => ?_), nomove id⟩
        obtain ⟨p1, p2⟩ := hp e
        have p2 : b.idx = b.abs.buf.length ∨ t.len ≤ b.idx := p2
        exact ⟨p1, by omega⟩
      · obtain ⟨q1, q2, q3⟩ := killC_saved (t := t) ot h
        exact ⟨q1, .inl q2, fun _ => q3, nomove id⟩
  case backEscapeWord =>
    split at h
    · cases h; exact ⟨rfl, .inl stay, fun _ => rfl, nomove id⟩
    · next h0 =>
      obtain ⟨o, hsd, h⟩ := R.bind_inv h
      cases o with
      | some i =>
        obtain ⟨k, ek, h⟩ := R.bind_inv h
        obtain ⟨b1, e1, h⟩ := R.bind_inv h
        cases h
        obtain ⟨q1, q2, q3⟩ := pushCut_saved (t := t) ot e1
        refine ⟨q1, .inl q2, fun hp => q3 (fun e => ?_), nomove id⟩
        obtain ⟨p1, p2⟩ := hp e
        have p2 : b.idx = 0 := p2
        omega
      | none =>
        obtain ⟨k, ek, h⟩ := R.bind_inv h
        cases h
        obtain ⟨a1, a2, a3⟩ := upTo_inv ek
        exact ⟨rfl, .inl (.inl ⟨a1, a2⟩), fun _ => rfl, nomove id⟩
  case replace x =>
    split at h
    · cases h
      refine ⟨rfl, .inl stay, fun hp => get_store ot (fun e => ?_), nomove id⟩
      obtain ⟨p1, p2⟩ := hp e
      have p2 : t.len ≤ b.idx := p2
      omega
    · cases h
  case transpose =>
    obtain ⟨b1, hb1⟩ : ∃ b1, b1 = if b.buf.len = 1 then { b with idx := b.idx + 1 } else b := ⟨_, rfl⟩
    have hbf : b1.buf = b.buf ∧ b1.heap = b.heap ∧ b1.bck = b.bck := by rw [hb1]; split <;> exact ⟨rfl, rfl, rfl⟩
    rw [← hb1, hbf.1] at h
    have stay1 : Stays b b1 := .inl ⟨by rw [hbf.1], by rw [hbf.1]⟩
    split at h
    · cases h; exact ⟨hbf.2.2, .inl stay1, fun _ => by rw [hbf.2.1], nomove id⟩
    · next h0 =>
      obtain ⟨x, _, h⟩ := R.bind_inv h
      obtain ⟨y, _, h⟩ := R.bind_inv h
      cases h
      refine ⟨hbf.2.2, .inl (.inl ⟨rfl, rfl⟩), fun hp => ?_, nomove id⟩
      show (b1.heap.store _ _ _).get t = _
      rw [hbf.2.1]
      refine get_store ot (fun e => ?_)
      obtain ⟨p1, p2⟩ := hp e
      have p2 : b.abs.buf.length < 2 := p2
      omega
  case yank =>
    split at h
    · next h0 =>
      cases h
      refine ⟨rfl, .inl stay, fun _ => rfl, nomove ?_⟩
      intro hm
      have hm : b.abs.lastKill ≠ [] := hm
      have := w.kill.length
      rw [h0] at this
      exact hm (List.length_eq_zero_iff.1 this)
    · next h0 =>
      obtain ⟨l, el, h⟩ := R.bind_inv h
      obtain ⟨r, er, h⟩ := R.bind_inv h
      cases h
      obtain ⟨hh, mm, e0⟩ : ∃ hh mm, b.heap.alloc [] (b.buf.len + b.kill.len) = (hh, mm) := ⟨_, _, rfl⟩
      have o0 : mm.Ok hh := by have := alloc_ok (h := b.heap) (xs := []) (b.buf.len + b.kill.len); rw [e0] at this; exact this
      have k0 : Keeps (fun _ => False) b.heap hh := by have := alloc_keeps (A := fun _ => False) (h := b.heap) (xs := []) (b.buf.len + b.kill.len); rw [e0] at this; exact this
      have a0 : mm.arr = b.heap.next := by
        have : (b.heap.alloc [] (b.buf.len + b.kill.len)).2.arr = b.heap.next := rfl
        rw [e0] at this; exact this
      rw [e0]
      dsimp only
      -- three appends to an array that is new
      have step : ∀ (h : Heap) (m : Slice) (ys : List Rune), m.Ok h → Keeps (fun _ => False) b.heap h → b.heap.next ≤ m.arr →
          (h.append grow m ys).2.Ok (h.append grow m ys).1 ∧ Keeps (fun _ => False) b.heap (h.append grow m ys).1 ∧
          b.heap.next ≤ (h.append grow m ys).2.arr := by
        intro h m ys om km hm
        have sp := append_spec (grow := grow) (xs := ys) om
        refine ⟨sp.ok, km.trans' sp.keeps (fun a ha h => by omega), ?_⟩
        rcases sp.arr with q | q
        · rw [q]; exact hm
        · exact Nat.le_trans km.next q
      obtain ⟨o1, k1, n1⟩ := step hh mm (hh.get l) o0 k0 (by omega)
      obtain ⟨o2, k2, n2⟩ := step _ _ ((hh.append grow mm (hh.get l)).1.get b.kill) o1 k1 n1
      obtain ⟨o3, k3, n3⟩ := step _ _ (((hh.append grow mm (hh.get l)).1.append grow (hh.append grow mm (hh.get l)).2
        ((hh.append grow mm (hh.get l)).1.get b.kill)).1.get r) o2 k2 n2
      exact ⟨rfl, .inl (.inr n3), fun _ => k3.get ot (fun h => h), fun _ hm => by have := ot.arr; rw [hm] at this; exact absurd n3 (Nat.not_le.2 this)⟩

/-- The saved text, after some commands. -/
structure Saved (n : Nat) (m : Prop) (xs : List Rune) (i : Nat) (e : Ed) (s : St) : Prop where
  own : s.Own
  sim : Sim s.b e
  slot : ∃ t, s.b.bck = some (t, i) ∧ s.get t = xs ∧ t.len = n ∧ (t.arr = s.b.buf.arr → t.off = s.b.buf.off) ∧ (m → t.arr ≠ s.b.buf.arr)

theorem abs_of_sim {e : Ed} {b : Buf} (sm : Sim b e) : e = { b.abs with bck := e.bck } := by
  obtain ⟨x, i, k, bk⟩ := e
  have h1 := sm.text; have h2 := sm.idx; have h3 := sm.kill
  simp only at h1 h2 h3
  subst h1 h2 h3
  rfl

theorem saved_step {n i cap : Nat} {m : Prop} {xs : List Rune} {e : Ed} {c : Cmd} (J : Saved n m xs i e s) (h1 : c ≠ .backup) (h2 : c ≠ .restore)
    (ht : ¬ e.Trigger c) (hb : m ∨ Behind n e c) :
    ∃ e' s', c.core e = .ok e' ∧ s.cmd grow c cap = .ok s' ∧ Saved n (m ∨ Moves e c) xs i e' s' := by
  obtain ⟨o, sm, t, b1, b2, b3, b4, b5⟩ := J
  have he := abs_of_sim sm
  have ht' : ¬ s.b.abs.Trigger c := by
    rw [he] at ht
    cases c <;> exact ht
  have hb' : m ∨ Behind n s.b.abs c := by
    rw [he] at hb
    cases c <;> exact hb
  have sp := cmd_spec (grow := grow) o c cap ht'
  obtain ⟨ea, hea, _⟩ := core_good o.good ht'
  obtain ⟨s', hs', o', _, sm'⟩ := agree_ok sp hea
  refine ⟨{ ea with bck := e.bck }, s', ?_, hs', ?_⟩
  · rw [he, core_bck h1 h2, hea]; rfl
  -- the memory
  obtain ⟨o1, hi1, ab1, f1, g1, l1, _⟩ := alloc_spec o (St.argRunes c) cap
  have ot : t.Ok s.b.heap := o.wf.bck _ b1
  have ot1 : t.Ok (s.alloc (St.argRunes c) cap).1.b.heap := ot.keep (alloc_keeps (A := fun _ => False) _)
  have gt1 : (s.alloc (St.argRunes c) cap).1.b.heap.get t = s.b.heap.get t := get_alloc ot _ _
  have bk1 : (s.alloc (St.argRunes c) cap).1.b.bck = s.b.bck := rfl
  have bf1 : (s.alloc (St.argRunes c) cap).1.b.buf = s.b.buf := rfl
  have na : (s.alloc (St.argRunes c) cap).1.b.heap.next = s.b.heap.next + 1 := rfl
  obtain ⟨s1, u, hp1⟩ : ∃ s1 u, s.alloc (St.argRunes c) cap = (s1, u) := ⟨_, _, rfl⟩
  rw [hp1] at o1 hi1 ab1 f1 g1 l1 ot1 gt1 bk1 bf1 na
  dsimp only at o1 hi1 ab1 f1 g1 l1 ot1 gt1 bk1 bf1 na
  have hap : Apart u s1.b := ⟨f1.ok, fun h => f1.own (.inl h), fun h => f1.own (.inr (.inl h)),
    fun p hp h => f1.own (.inr (.inr (.inl ⟨p, hp, h⟩)))⟩
  have hu : t.arr ≠ u.arr := fun h => hap.bck _ (bk1.trans b1) h.symm
  simp only [St.cmd, hp1] at hs'
  obtain ⟨b', hb2, hs'⟩ := R.bind_inv hs'
  cases hs'
  obtain ⟨q1, q2, q3, q4⟩ := apply_saved (t := t) o1.wf hap ot1 hu h1 h2 hb2
  rw [ab1] at q3 q4
  refine ⟨o', ⟨sm'.text, sm'.idx, sm'.kill⟩, t, ?_, ?_, b3, ?_, ?_⟩
  · show b'.bck = _
    rw [q1, bk1, b1]
  · show b'.heap.get t = _
    rw [q3, gt1]
    · exact b2
    · intro ha
      rw [bf1] at ha ⊢
      refine ⟨b4 ha, ?_⟩
      rcases hb' with h | h
      · exact absurd ha (b5 h)
      · rw [b3]; exact h
  · show t.arr = b'.buf.arr → t.off = b'.buf.off
    intro ha
    rcases q2 with (⟨e1, e2⟩ | e1) | e1
    · rw [e2, bf1]
      rw [e1, bf1] at ha
      exact b4 ha
    · have := ot1.arr; omega
    · exact absurd (ha.trans e1) hu
  · show _ → t.arr ≠ b'.buf.arr
    rintro (h | h)
    · intro ha
      rcases q2 with (⟨e1, e2⟩ | e1) | e1
      · rw [e1, bf1] at ha
        exact b5 h ha
      · have := ot1.arr; omega
      · exact absurd (ha.trans e1) hu
    · refine q4 ?_
      rw [he] at h
      cases c <;> exact h

theorem saved_run {n i : Nat} {xs : List Rune} : ∀ (cs : List (Cmd × Nat)) {m : Prop} {e : Ed} {s : St}, Saved n m xs i e s →
    Gentle n m (cs.map (·.1)) e → ∃ m' e' s', runActs grow limit (cs.map fun p => .cmd p.1 p.2) s = .ok s' ∧ Saved n m' xs i e' s'
  | [], m, e, s, J, _ => ⟨m, e, s, rfl, J⟩
  | (c, cap) :: cs, m, e, s, J, hg => by
    obtain ⟨g1, g2, g3, g4, g5⟩ := hg
    obtain ⟨e', s', h1, h2, h3⟩ := saved_step (grow := grow) (cap := cap) J g1 g2 g3 g4
    obtain ⟨m'', e'', s'', k1, k2⟩ := saved_run cs h3 (g5 e' h1)
    refine ⟨m'', e'', s'', ?_, k2⟩
    simp only [List.map_cons, runActs, Act.run, h2, R.bind_ok]
    exact k1

theorem runActs_append (as bs : List Act) (s : St) :
    runActs grow limit (as ++ bs) s = runActs grow limit as s >>= runActs grow limit bs := by
  induction as generalizing s with
  | nil => rfl
  | cons a as ih =>
    simp only [List.cons_append, runActs]
    cases a.run grow limit s with
    | error => rfl
    | ok s' => exact ih s'

end RL.Mem
