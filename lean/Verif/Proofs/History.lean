import Verif.Spec.History
import Verif.Proofs.Utf8
import Verif.Proofs.Runes
/-! Lemmas about the history model. -/

namespace RL
namespace Hist
open Spec

theorem compactList_eq (limit : Int) (l : List Nat) : compactList limit l = keepNewest limit l := by
  induction l with
  | nil => simp [compactList, keepNewest]
  | cons a l ih =>
    unfold compactList
    by_cases h : ((a :: l).length : Int) > limit
    · rw [if_pos h, ih]
      simp only [keepNewest, List.length_cons] at h ⊢
      rw [show l.length + 1 - limit.toNat = (l.length - limit.toNat) + 1 by omega]
      rfl
    · rw [if_neg h]
      simp only [keepNewest, List.length_cons] at h ⊢
      rw [show l.length + 1 - limit.toNat = 0 by omega]
      rfl

theorem keepNewest_length {α} (n : Int) (l : List α) : (keepNewest n l).length ≤ n.toNat := by
  simp [keepNewest]; omega

theorem keepNewest_map {α β} (n : Int) (f : α → β) (l : List α) : (keepNewest n l).map f = keepNewest n (l.map f) := by
  simp [keepNewest]

theorem keepNewest_self {α} {n : Int} {l : List α} (h : l.length ≤ n.toNat) : keepNewest n l = l := by
  simp [keepNewest, Nat.sub_eq_zero_of_le h]

theorem keepNewest_suffix {α} (n : Int) (l : List α) : keepNewest n l <:+ l := List.drop_suffix _ _

theorem keepNewest_append {α} (n : Int) (l m : List α) : keepNewest n (keepNewest n l ++ m) = keepNewest n (l ++ m) := by
  simp only [keepNewest, List.length_append, List.length_drop, List.drop_append, List.drop_drop]
  congr 2
  · omega
  · omega

theorem mem_keepNewest {α} {n : Int} {l : List α} {x : α} (h : x ∈ keepNewest n l) : x ∈ l := List.mem_of_mem_drop h

@[simp] theorem setItem_order (h : Hist) (c it) : (h.setItem c it).order = h.order := rfl

/-! ### The chains visited by Prev / Next -/

theorem backChain_append {x : Nat} {pre post acc : List Nat} (h : x ∉ pre) :
    backChain x (pre ++ x :: post) acc = pre.reverse ++ acc := by
  induction pre generalizing acc with
  | nil => simp [backChain]
  | cons a pre ih =>
    simp only [List.mem_cons, not_or] at h
    simp [backChain, Ne.symm h.1, ih h.2]

theorem backChain_absent {x : Nat} {l acc : List Nat} (h : x ∉ l) : backChain x l acc = [] := by
  induction l generalizing acc with
  | nil => rfl
  | cons a l ih =>
    simp only [List.mem_cons, not_or] at h
    simp [backChain, Ne.symm h.1, ih h.2]

theorem fwdChain_append {x : Nat} {pre post : List Nat} (h : x ∉ pre) : fwdChain x (pre ++ x :: post) = post := by
  induction pre with
  | nil => simp [fwdChain]
  | cons a pre ih =>
    simp only [List.mem_cons, not_or] at h
    simp [fwdChain, Ne.symm h.1, ih h.2]

theorem fwdChain_absent {x : Nat} {l : List Nat} (h : x ∉ l) : fwdChain x l = [] := by
  induction l with
  | nil => rfl
  | cons a l ih =>
    simp only [List.mem_cons, not_or] at h
    simp [fwdChain, Ne.symm h.1, ih h.2]

/-- `elem.Prev()` in a list without repetitions. -/
theorem elemPrev_eq_some {h : Hist} {c p : Nat} (hn : h.order.Nodup) :
    h.elemPrev c = some p ↔ ∃ a b, h.order = a ++ p :: c :: b := by
  unfold elemPrev
  constructor
  · intro hh
    by_cases hc : c ∈ h.order
    · obtain ⟨pre, post, hpp⟩ := List.append_of_mem hc
      have hcp : c ∉ pre := by
        intro hcp
        rw [hpp, List.nodup_append] at hn
        exact hn.2.2 c hcp c (by simp) rfl
      rw [hpp, backChain_append hcp] at hh
      simp only [List.append_nil, List.head?_reverse] at hh
      obtain ⟨a, rfl⟩ := List.getLast?_eq_some_iff.1 hh
      exact ⟨a, post, by rw [hpp]; simp⟩
    · rw [backChain_absent hc] at hh; simp at hh
  · rintro ⟨a, b, hab⟩
    have hcp : c ∉ a ++ [p] := by
      intro hcp
      rw [hab, show a ++ p :: c :: b = (a ++ [p]) ++ c :: b by simp, List.nodup_append] at hn
      exact hn.2.2 c hcp c (by simp) rfl
    rw [hab, show a ++ p :: c :: b = (a ++ [p]) ++ c :: b by simp, backChain_append hcp]
    simp

theorem elemNext_eq_some {h : Hist} {c p : Nat} (hn : h.order.Nodup) :
    h.elemNext c = some p ↔ ∃ a b, h.order = a ++ c :: p :: b := by
  unfold elemNext
  constructor
  · intro hh
    by_cases hc : c ∈ h.order
    · obtain ⟨pre, post, hpp⟩ := List.append_of_mem hc
      have hcp : c ∉ pre := by
        intro hcp
        rw [hpp, List.nodup_append] at hn
        exact hn.2.2 c hcp c (by simp) rfl
      rw [hpp, fwdChain_append hcp] at hh
      cases post with
      | nil => simp at hh
      | cons q post =>
        simp only [List.head?_cons, Option.some.injEq] at hh
        subst hh
        exact ⟨pre, post, hpp⟩
    · rw [fwdChain_absent hc] at hh; simp at hh
  · rintro ⟨a, b, hab⟩
    have hcp : c ∉ a := by
      intro hcp
      rw [hab, List.nodup_append] at hn
      exact hn.2.2 c hcp c (by simp) rfl
    rw [hab, fwdChain_append hcp]
    rfl

/-! ### Invariant -/

theorem fresh_WF (d) : (fresh d).WF :=
  ⟨by simp [fresh], by simp [fresh], by simp [fresh], by simp [fresh], by simp [fresh]⟩

theorem push_WF {h : Hist} (w : h.WF) (s) : (h.push s).WF where
  nodup := by
    simp only [push, List.nodup_append]
    refine ⟨w.nodup, by simp, ?_⟩
    intro a ha b hb
    simp only [List.mem_singleton] at hb
    have := w.known a ha
    omega
  known := by
    intro i hi
    simp only [push, List.mem_append, List.mem_singleton] at hi ⊢
    rcases hi with hi | hi
    · have := w.known i hi; omega
    · omega
  cur := by intro c hc; simp only [push, Option.some.injEq] at hc ⊢; omega
  cur_none := by simp [push]
  version := by
    intro i
    simp only [push, setItem]
    split
    · simp
    · exact w.version i

theorem compact_WF {h : Hist} (w : h.WF) (cfg) : (h.compact cfg).WF where
  nodup := by
    simp only [compact, compactList_eq]
    exact w.nodup.sublist (List.drop_sublist _ _)
  known := by
    intro i hi
    simp only [compact, compactList_eq] at hi ⊢
    exact w.known i (mem_keepNewest hi)
  cur := w.cur
  cur_none := by
    intro h0
    simp only [compact, compactList_eq]
    rw [w.cur_none h0]; simp [keepNewest]
  version := w.version

theorem setItem_WF {h : Hist} (w : h.WF) {c : Nat} {it : Item} (hv : it.version ≤ h.ver) : (h.setItem c it).WF where
  nodup := w.nodup
  known := w.known
  cur := w.cur
  cur_none := w.cur_none
  version := by
    intro i
    simp only [setItem]
    split
    · exact hv
    · exact w.version i

theorem setCur_WF {h : Hist} (w : h.WF) {c : Nat} (hc : c < h.next) : { h with current := some c }.WF :=
  { w with
    cur := by intro x hx; simp only [Option.some.injEq] at hx; subst hx; exact hc
    cur_none := by simp }

theorem ver_WF {h : Hist} (w : h.WF) : { h with ver := h.ver + 1 }.WF :=
  { w with version := fun i => Nat.le_succ_of_le (w.version i) }

theorem back_mem {h : Hist} {b : Nat} (hb : h.back = some b) : b ∈ h.order := by
  exact List.mem_of_getLast? hb

theorem setBack_WF {h : Hist} (w : h.WF) : { h with current := h.back }.WF :=
  { w with
    cur := by intro x hx; exact w.known x (back_mem hx)
    cur_none := by
      intro h0
      simpa [back] using h0 }

theorem update_WF {h : Hist} (w : h.WF) (cfg s commit) : (h.update cfg s commit).WF := by
  unfold update
  split
  · exact compact_WF (push_WF w s) cfg
  · dsimp only
    apply compact_WF
    split
    · split
      · have := setItem_WF w (c := ‹Nat›) (it := { source := s, version := h.ver, tmp := (h.elems ‹Nat›).tmp }) (Nat.le_refl _)
        exact { this with }
      · exact setItem_WF w (Nat.le_refl _)
    · exact setItem_WF w (Nat.le_refl _)

theorem cleanBack_WF {h : Hist} (w : h.WF) {b} (hb : h.back = some b) : (h.cleanBack b).WF := by
  have h1 := setCur_WF w (w.known b (back_mem hb))
  have h2 := setItem_WF h1 (c := b) (it := (h.elems b).clean) (w.version b)
  exact ver_WF h2

theorem commit_ok {h : Hist} (w : h.WF) (cfg cur) : ∃ h', h.commit cfg cur = .ok h' ∧ h'.WF := by
  unfold commit
  by_cases hc : h.current ≠ h.back
  · rw [if_pos hc]
    cases h0 : h.current with
    | none =>
      exfalso
      apply hc
      rw [h0, back, w.cur_none h0]; rfl
    | some c =>
      refine ⟨_, rfl, ?_⟩
      exact push_WF (ver_WF (update_WF (setBack_WF w) cfg _ true)) []
  · rw [if_neg hc]
    refine ⟨_, rfl, ?_⟩
    exact push_WF (ver_WF (update_WF w cfg _ true)) []

theorem new_ok {h : Hist} (w : h.WF) (cfg cur) : ∃ h', h.new cfg cur = .ok h' ∧ h'.WF := by
  unfold new
  split
  · exact ⟨h, rfl, w⟩
  · split
    · next hb =>
      apply commit_ok
      split
      · exact { w with
          cur := by simp
          cur_none := by intro _; simpa [back] using hb }
      · exact w
    · next b hb =>
      split
      · exact ⟨_, rfl, cleanBack_WF w hb⟩
      · split
        · exact ⟨_, rfl, cleanBack_WF w hb⟩
        · exact commit_ok w cfg cur

theorem prev_WF {h : Hist} (w : h.WF) : h.prev.2.WF := by
  unfold prev
  split
  · exact w
  · split
    · exact w
    · next c hc p hp =>
      obtain ⟨a, b, hab⟩ := (elemPrev_eq_some w.nodup).1 hp
      exact setCur_WF w (w.known p (by rw [hab]; simp))

theorem next_WF {h : Hist} (w : h.WF) : h.nextLine.2.WF := by
  unfold nextLine
  split
  · exact w
  · split
    · exact w
    · next c hc p hp =>
      obtain ⟨a, b, hab⟩ := (elemNext_eq_some w.nodup).1 hp
      exact setCur_WF w (w.known p (by rw [hab]; simp))

theorem revert_WF {h : Hist} (w : h.WF) : h.revert.WF := setBack_WF (ver_WF w)

theorem reset_WF {h : Hist} (w : h.WF) : h.reset.WF :=
  { w with
    nodup := by simp [reset]
    known := by simp [reset]
    cur := by simp [reset]
    cur_none := by simp [reset] }

theorem loadLines_WF {h : Hist} (w : h.WF) (cfg ls) : (loadLines cfg ls h).WF := by
  induction ls generalizing h with
  | nil => exact w
  | cons l ls ih =>
    unfold loadLines
    split
    · exact ih w
    · exact ih (compact_WF (push_WF w _) cfg)

theorem rewrite_WF {h : Hist} (w : h.WF) (cfg) : (h.rewrite cfg).WF := by
  unfold rewrite
  split
  · exact w
  · exact { w with }

theorem updatePath_WF {h : Hist} (w : h.WF) (cfg) : (h.updatePath cfg).WF := by
  unfold updatePath
  split
  · exact w
  · dsimp only
    apply push_WF
    apply ver_WF
    have h1 : ({ h with fd := Fd.opened } : Hist).WF := { w with }
    have h2 := loadLines_WF h1 cfg (termLines [] h.disk)
    split
    · exact rewrite_WF h2 cfg
    · exact h2

theorem init_WF {h : Hist} (w : h.WF) (cfg) : (h.init cfg).WF := by
  unfold init
  split
  · exact w
  · split
    · exact updatePath_WF w cfg
    · exact w

end Hist

theorem HOp.run_ok {h : Hist} (w : h.WF) (cfg) (o : HOp) : ∃ h', o.run cfg h = .ok h' ∧ h'.WF := by
  cases o with
  | new s => exact Hist.new_ok w cfg s
  | update s => exact ⟨_, rfl, Hist.update_WF w cfg s false⟩
  | prev => exact ⟨_, rfl, Hist.prev_WF w⟩
  | next => exact ⟨_, rfl, Hist.next_WF w⟩
  | revert => exact ⟨_, rfl, Hist.revert_WF w⟩
  | reset => exact ⟨_, rfl, Hist.reset_WF w⟩
  | enable => exact ⟨_, rfl, { w with }⟩
  | disable => exact ⟨_, rfl, { w with }⟩
  | close => exact ⟨_, rfl, { w with }⟩
  | init => exact ⟨_, rfl, Hist.init_WF w cfg⟩

theorem runHOps_ok {h : Hist} (w : h.WF) (cfg) (os : List HOp) : ∃ h', runHOps cfg os h = .ok h' ∧ h'.WF := by
  induction os generalizing h with
  | nil => exact ⟨h, rfl, w⟩
  | cons o os ih =>
    obtain ⟨h1, e1, w1⟩ := HOp.run_ok w cfg o
    obtain ⟨h2, e2, w2⟩ := ih w1
    exact ⟨h2, by simp [runHOps, e1, e2], w2⟩

end RL

namespace RL.Hist
open Spec

/-! ### Entries -/

theorem push_entries {h : Hist} (w : h.WF) (s) : (h.push s).entries = h.order.map fun i => (h.elems i).source := by
  simp only [entries, push, List.dropLast_concat]
  apply List.map_congr_left
  intro i hi
  have := w.known i hi
  simp [setItem, show i ≠ h.next by omega]

theorem back_some {h : Hist} {b : Nat} (hb : h.back = some b) : ∃ l, h.order = l ++ [b] :=
  List.getLast?_eq_some_iff.1 hb

theorem back_none {h : Hist} (hb : h.back = none) : h.order = [] := by simpa [back] using hb

theorem repeatsNewest_iff {h : Hist} (w : h.WF) {b : Nat} (hb : h.back = some b) (cur : List Rune) :
    h.repeatsNewest b cur = true ↔ h.entries.getLast? = some cur := by
  obtain ⟨l, hl⟩ := back_some hb
  unfold repeatsNewest
  cases hp : h.elemPrev b with
  | none =>
    have : l = [] := by
      rcases List.eq_nil_or_concat l with rfl | ⟨l', p, rfl⟩
      · rfl
      · have : h.elemPrev b = some p := (elemPrev_eq_some w.nodup).2 ⟨l', [], by rw [hl]; simp⟩
        rw [hp] at this; simp at this
    simp [entries, hl, this]
  | some p =>
    obtain ⟨a, t, hat⟩ := (elemPrev_eq_some w.nodup).1 hp
    have ht : t = [] := by
      have hn := w.nodup
      rcases List.eq_nil_or_concat t with rfl | ⟨t', q, rfl⟩
      · rfl
      · rw [List.concat_eq_append] at hat
        have hbq : b = q := by
          have := hat.symm.trans hl
          rw [show a ++ p :: b :: (t' ++ [q]) = (a ++ p :: b :: t') ++ [q] by simp] at this
          have := congrArg List.getLast? this
          rw [List.getLast?_concat, List.getLast?_concat] at this
          simpa using this.symm
        subst hbq
        rw [hat, show a ++ p :: b :: (t' ++ [b]) = (a ++ p :: b :: t') ++ [b] by simp, List.nodup_append] at hn
        exact (hn.2.2 b (by simp) b (by simp) rfl).elim
    subst ht
    have h1 : h.entries = (a ++ [p]).map fun i => (h.elems i).source := by
      rw [entries, hat, show a ++ [p, b] = (a ++ [p]) ++ [b] by simp, List.dropLast_concat]
    rw [h1]
    simp only [List.map_append, List.map_cons, List.map_nil, List.getLast?_concat, Option.some.injEq, runesEqual_iff]
    exact ⟨fun e => e.symm, fun e => e.symm⟩

theorem cleanBack_entries {h : Hist} (w : h.WF) {b : Nat} (hb : h.back = some b) : (h.cleanBack b).entries = h.entries := by
  obtain ⟨l, hl⟩ := back_some hb
  simp only [entries, cleanBack, setItem, hl, List.dropLast_concat]
  apply List.map_congr_left
  intro i hi
  have hn := w.nodup
  rw [hl, List.nodup_append] at hn
  have : i ≠ b := fun h0 => hn.2.2 i hi b (by simp) h0
  simp [this]

/-- Committing a line when nothing is recalled. -/
theorem update_commit {h : Hist} (w : h.WF) (cfg s) (hc : h.current = h.back) :
    (h.update cfg s true).order.map (fun i => ((h.update cfg s true).elems i).source) =
      keepNewest cfg.limit (h.entries ++ [s]) ∧
    (h.update cfg s true).ver = h.ver ∧ (h.update cfg s true).fd = h.fd ∧
    (h.update cfg s true).enable = h.enable ∧
    (h.update cfg s true).disk = h.disk ++ (if h.order ≠ [] ∧ h.fd = .opened then fileLine s else []) := by
  cases hb : h.back with
  | none =>
    have ho := back_none hb
    rw [hb] at hc
    have hu : h.update cfg s true = (h.push s).compact cfg := by
      simp [update, hc]
    rw [hu]
    refine ⟨?_, rfl, rfl, rfl, by simp [compact, push, setItem, ho]⟩
    simp only [compact, compactList_eq, keepNewest_map, push, ho, entries]
    simp [setItem]
  | some b =>
    rw [hb] at hc
    obtain ⟨l, hl⟩ := back_some hb
    have hn := w.nodup
    rw [hl, List.nodup_append] at hn
    have hne : h.order ≠ [] := by rw [hl]; simp
    by_cases hf : h.fd = .opened
    · have hu : h.update cfg s true = compact cfg { h.setItem b { source := s, version := h.ver, tmp := (h.elems b).tmp } with
          disk := h.disk ++ fileLine s } := by
        simp [update, hc, setItem, hf]
      rw [hu]
      refine ⟨?_, rfl, rfl, rfl, by simp [compact, hf, hne]⟩
      simp only [compact, compactList_eq, keepNewest_map, hl, entries, List.dropLast_concat, setItem]
      congr 1
      simp only [List.map_append, List.map_cons, List.map_nil, if_true, List.append_cancel_right_eq]
      apply List.map_congr_left
      intro i hi
      have : i ≠ b := fun h0 => hn.2.2 i hi b (by simp) h0
      simp [this]
    · have hu : h.update cfg s true = compact cfg (h.setItem b { source := s, version := h.ver, tmp := (h.elems b).tmp }) := by
        simp [update, hc, setItem, hf]
      rw [hu]
      refine ⟨?_, rfl, rfl, rfl, by simp [compact, hf, setItem]⟩
      simp only [compact, compactList_eq, keepNewest_map, hl, entries, List.dropLast_concat, setItem]
      congr 1
      simp only [List.map_append, List.map_cons, List.map_nil, if_true, List.append_cancel_right_eq]
      apply List.map_congr_left
      intro i hi
      have : i ≠ b := fun h0 => hn.2.2 i hi b (by simp) h0
      simp [this]

/-- What `New` commits: the given line if nothing is recalled, otherwise the pending edit of the recalled entry. -/
def committed (h : Hist) (cur : List Rune) : List Rune :=
  if h.current = h.back then cur
  else match h.current with
    | some c => (h.elems c).tmp
    | none => cur

theorem commit_spec {h : Hist} (w : h.WF) (cfg cur) {h' : Hist} (hc : h.commit cfg cur = .ok h') :
    h'.entries = keepNewest cfg.limit (h.entries ++ [committed h cur]) ∧
    h'.current = h'.back ∧ h'.order ≠ [] ∧ h'.order.length ≤ cfg.limit.toNat + 1 ∧ h'.ver = h.ver + 1 ∧ h'.fd = h.fd ∧
    h'.enable = h.enable ∧
    h'.disk = h.disk ++ (if h.order ≠ [] ∧ h.fd = .opened then fileLine (committed h cur) else []) ∧
    (∀ b, h'.back = some b → h'.showItem b = []) := by
  have key : ∀ (g : Hist), g.WF → g.current = g.back → ∀ s,
      (({ g.update cfg s true with ver := (g.update cfg s true).ver + 1 } : Hist).push []).entries =
        keepNewest cfg.limit (g.entries ++ [s]) ∧
      (({ g.update cfg s true with ver := (g.update cfg s true).ver + 1 } : Hist).push []).disk =
        g.disk ++ (if g.order ≠ [] ∧ g.fd = .opened then fileLine s else []) ∧
      (({ g.update cfg s true with ver := (g.update cfg s true).ver + 1 } : Hist).push []).ver = g.ver + 1 ∧
      (({ g.update cfg s true with ver := (g.update cfg s true).ver + 1 } : Hist).push []).fd = g.fd ∧
      (({ g.update cfg s true with ver := (g.update cfg s true).ver + 1 } : Hist).push []).enable = g.enable ∧
      (({ g.update cfg s true with ver := (g.update cfg s true).ver + 1 } : Hist).push []).order.length ≤ cfg.limit.toNat + 1 := by
    intro g wg hg s
    obtain ⟨k1, k2, k3, k4, k5⟩ := update_commit wg cfg s hg
    rw [push_entries (ver_WF (update_WF wg cfg s true))]
    refine ⟨k1, k5, congrArg (· + 1) k2, k3, k4, ?_⟩
    have hle : (g.update cfg s true).order.length ≤ cfg.limit.toNat := by
      have := congrArg List.length k1
      rw [List.length_map] at this
      rw [this]
      exact keepNewest_length _ _
    simp only [push, List.length_append, List.length_singleton]
    exact Nat.add_le_add_right hle 1
  have fin : ∀ g : Hist, (∀ i, (g.elems i).version ≤ g.ver) → ∀ s, (({ g with ver := g.ver + 1 } : Hist).push s).current =
      (({ g with ver := g.ver + 1 } : Hist).push s).back ∧ (({ g with ver := g.ver + 1 } : Hist).push s).order ≠ [] ∧
      ∀ b, (({ g with ver := g.ver + 1 } : Hist).push s).back = some b →
        (({ g with ver := g.ver + 1 } : Hist).push s).showItem b = s := by
    intro g _ s
    refine ⟨by simp [push, back], by simp [push], ?_⟩
    intro b hb
    have : b = g.next := by simpa [push, back] using hb.symm
    subst this
    simp [showItem, push, setItem]
  unfold commit at hc
  by_cases hcb : h.current ≠ h.back
  · rw [if_pos hcb] at hc
    cases h0 : h.current with
    | none => rw [h0] at hc; simp at hc
    | some c =>
      rw [h0] at hc
      simp only [R.bind_ok] at hc
      have e := Except.ok.inj hc
      subst e
      have wb := setBack_WF w
      obtain ⟨k1, k2, k3, k4, k5, k6⟩ := key { h with current := h.back } wb rfl (h.elems c).tmp
      obtain ⟨f1, f2, f3⟩ := fin _ (update_WF wb cfg (h.elems c).tmp true).version []
      have hcm : committed h cur = (h.elems c).tmp := by
        unfold committed
        rw [if_neg hcb, h0]
      rw [hcm]
      exact ⟨k1, f1, f2, k6, k3, k4, k5, k2, f3⟩
  · rw [if_neg hcb] at hc
    simp only [R.bind_ok] at hc
    have e := Except.ok.inj hc
    subst e
    have hcb' : h.current = h.back := Classical.not_not.1 hcb
    obtain ⟨k1, k2, k3, k4, k5, k6⟩ := key h w hcb' cur
    obtain ⟨f1, f2, f3⟩ := fin _ (update_WF w cfg cur true).version []
    have hcm : committed h cur = cur := if_pos hcb'
    rw [hcm]
    exact ⟨k1, f1, f2, k6, k3, k4, k5, k2, f3⟩

end RL.Hist
