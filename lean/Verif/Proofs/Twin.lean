import Verif.Spec.Twin
import Verif.Model.Resize
import Verif.Proofs.Keys
/-!
# Two runs that both return, on different displays
-/

namespace RL

/-- If both computations return, the results are related. -/
def Both {α β} (P : α → β → Prop) (x : R α) (y : R β) : Prop := ∀ a b, x = .ok a → y = .ok b → P a b

namespace Both

theorem bind {α β γ δ} {P : α → β → Prop} {Q : γ → δ → Prop} {x : R α} {y : R β} {f : α → R γ} {g : β → R δ}
    (h : Both P x y) (hf : ∀ a b, P a b → Both Q (f a) (g b)) : Both Q (x >>= f) (y >>= g) := by
  intro c e h1 h2
  obtain ⟨a, ha, h1⟩ := R.bind_inv h1
  obtain ⟨b, hb, h2⟩ := R.bind_inv h2
  exact hf a b (h a b ha hb) c e h1 h2

/-- Nothing is known of the first results. -/
theorem bind' {α β γ δ} {Q : γ → δ → Prop} {x : R α} {y : R β} {f : α → R γ} {g : β → R δ}
    (hf : ∀ a b, Both Q (f a) (g b)) : Both Q (x >>= f) (y >>= g) :=
  bind (P := fun _ _ => True) (fun _ _ _ _ => trivial) (fun a b _ => hf a b)

theorem ok {α β} {P : α → β → Prop} {a : α} {b : β} (h : P a b) : Both P (.ok a) (.ok b) := by
  intro c e h1 h2; cases h1; cases h2; exact h

theorem errL {α β} {P : α → β → Prop} {e : Fault} {y : R β} : Both P (.error e) y := by intro c e h1; cases h1
theorem errR {α β} {P : α → β → Prop} {e : Fault} {x : R α} : Both P x (.error e) := by intro c e _ h2; cases h2

theorem mono {α β} {P Q : α → β → Prop} {x : R α} {y : R β} (h : Both P x y) (hpq : ∀ a b, P a b → Q a b) : Both Q x y :=
  fun a b h1 h2 => hpq a b (h a b h1 h2)

theorem same {α} {x : R α} : Both (fun a b => b = a) x x := by
  intro a b h1 h2; rw [h1] at h2; cases h2; rfl

theorem ite {α β} {P : α → β → Prop} {p q : Prop} [Decidable p] [Decidable q] {x x' : R α} {y y' : R β} (hpq : p ↔ q)
    (h1 : p → Both P x y) (h2 : ¬ p → Both P x' y') : Both P (if p then x else x') (if q then y else y') := by
  by_cases hp : p
  · rw [if_pos hp, if_pos (hpq.1 hp)]; exact h1 hp
  · rw [if_neg hp, if_neg (fun h => hp (hpq.2 h))]; exact h2 hp

end Both

variable {U U' : UTables} {d d' : DCfg}

/-! ### The line -/

/-- The same line, cursor, kill buffer and backup. -/
def RB.Tw (r r' : RB) : Prop := r'.toEd = r.toEd

namespace RB.Tw

theorem buf {r r' : RB} (h : r.Tw r') : r'.buf = r.buf := congrArg Ed.buf h
theorem idx {r r' : RB} (h : r.Tw r') : r'.idx = r.idx := congrArg Ed.idx h
theorem write {r r' : RB} (h : r.Tw r') (a b : List Tok) : (r.write a).Tw (r'.write b) := h

theorem refreshV {α} {r r' : RB} (h : r.Tw r') (f : Ed → R (α × Ed)) :
    Both (fun a b => b.1 = a.1 ∧ a.2.Tw b.2) (r.refreshV U d f) (r'.refreshV U' d' f) := by
  intro a b h1 h2
  obtain ⟨h1, _⟩ := RB.refreshV_ok (a := a.1) (r' := a.2) h1
  obtain ⟨h2, _⟩ := RB.refreshV_ok (a := b.1) (r' := b.2) h2
  rw [show r'.toEd = r.toEd from h, h1] at h2
  injection h2 with h2
  simp only [Prod.mk.injEq] at h2
  exact ⟨h2.1.symm, h2.2.symm⟩

theorem refresh {r r' : RB} (h : r.Tw r') (f : Ed → R Ed) : Both RB.Tw (r.refresh U d f) (r'.refresh U' d' f) := by
  intro a b h1 h2
  obtain ⟨h1, _⟩ := RB.refresh_ok h1
  obtain ⟨h2, _⟩ := RB.refresh_ok h2
  rw [show r'.toEd = r.toEd from h, h1] at h2
  injection h2 with h2
  exact h2.symm

theorem refreshNil {r r' : RB} (h : r.Tw r') : Both RB.Tw (r.refreshNil U d) (r'.refreshNil U' d') := h.refresh _
theorem writeRunes {r r' : RB} (h : r.Tw r') (s : List Rune) : Both RB.Tw (r.writeRunes U d s) (r'.writeRunes U' d' s) := h.refresh _
theorem setWithIdx {r r' : RB} (h : r.Tw r') (i : Nat) (s : List Rune) :
    Both RB.Tw (r.setWithIdx U d i s) (r'.setWithIdx U' d' i s) := h.refresh _
theorem set {r r' : RB} (h : r.Tw r') (s : List Rune) : Both RB.Tw (r.set U d s) (r'.set U' d' s) := h.setWithIdx _ _
theorem delete {r r' : RB} (h : r.Tw r') : Both (fun a b => b.1 = a.1 ∧ a.2.Tw b.2) (r.delete U d) (r'.delete U' d') := h.refreshV _

theorem clean {r r' : RB} (h : r.Tw r') : Both RB.Tw (r.clean U) (r'.clean U') := by
  intro a b h1 h2
  exact (RB.clean_ok h2).1.trans (Eq.trans h (RB.clean_ok h1).1.symm)

theorem apply {r r' : RB} (h : r.Tw r') (k : Cmd) : Both RB.Tw (k.apply U d r) (k.apply U' d' r') := by
  intro a b h1 h2
  obtain ⟨h1, _⟩ := RL.apply_ok h1
  obtain ⟨h2, _⟩ := RL.apply_ok h2
  rw [show r'.toEd = r.toEd from h, h1] at h2
  injection h2 with h2
  exact h2.symm

theorem reset {r r' : RB} (h : r.Tw r') : r'.reset.1 = r.reset.1 ∧ r.reset.2.Tw r'.reset.2 := by
  refine ⟨h.buf, ?_⟩
  have e1 : r'.lastKill = r.lastKill := congrArg Ed.lastKill h
  have e2 : r'.bck = r.bck := congrArg Ed.bck h
  simp only [RB.Tw, RB.reset, e1, e2]

end RB.Tw

/-! ### The search -/

/-- The same search in two windows. -/
structure Search.Tw (s s' : Search) : Prop where
  w : s.width ≠ 0
  w' : s'.width ≠ 0
  eq : s' = { s with width := s'.width }

/-- Search, history and line. -/
def Tri (a b : Search × Hist × RB) : Prop := a.1.Tw b.1 ∧ b.2.1 = a.2.1 ∧ a.2.2.Tw b.2.2

namespace Search.Tw

theorem underline {s s' : Search} (h : s.Tw s') {r r' : RB} (hr : r.Tw r') : Both RB.Tw (s.underline U r) (s'.underline U' r') := by
  unfold Search.underline
  rw [h.eq]
  refine .ite Iff.rfl (fun _ => ?_) (fun _ => .ok hr)
  intro a b h1 h2
  exact (RB.setStyle_ok h2).1.trans (Eq.trans hr (RB.setStyle_ok h1).1.symm)

theorem setState {s s' : Search} (h : s.Tw s') (x : Int) : (s.setState x).Tw (s'.setState x) := by
  unfold Search.setState
  obtain ⟨h1, h2, h3⟩ := h
  split
  · exact ⟨h1, h2, by rw [h3]⟩
  · split
    · exact ⟨h1, h2, by rw [h3]⟩
    · exact ⟨h1, h2, h3⟩

theorem searchRefresh {s s' : Search} (h : s.Tw s') {r r' : RB} (hr : r.Tw r') (x : Int) :
    Both (fun a b => a.1.Tw b.1 ∧ a.2.Tw b.2) (s.searchRefresh U r x) (s'.searchRefresh U' r' x) := by
  unfold Search.searchRefresh
  refine .bind' fun _ _ => .bind' fun _ _ => .bind' fun _ _ => ?_
  refine .bind (h.underline hr) fun r r' hr => .bind' fun _ _ => .bind' fun _ _ => .ok ⟨h.setState x, hr.write _ _⟩

theorem find {s s' : Search} (h : s.Tw s') {r r' : RB} (hr : r.Tw r') (cfg : HCfg) (hi : Hist) (n : Bool) :
    s'.findHistoryBy cfg hi r' n = s.findHistoryBy cfg hi r n := by
  unfold Search.findHistoryBy
  rw [hr.idx, h.eq]

theorem search {s s' : Search} (h : s.Tw s') {r r' : RB} (hr : r.Tw r') (cfg : HCfg) (hi : Hist) (n : Bool) :
    Both Tri (Search.search U d cfg n s hi r) (Search.search U' d' cfg n s' hi r') := by
  have hd : s'.data = s.data := by rw [h.eq]
  have hw : s'.fwd = s.fwd := by rw [h.eq]
  unfold Search.search
  refine .ite (by rw [hd]) (fun _ => ?_) (fun _ => ?_)
  · refine .bind (searchRefresh (s := { s with failing := false }) (s' := { s' with failing := false }) ⟨h.w, h.w', ?_⟩ hr _)
      fun ⟨_, _⟩ ⟨_, _⟩ hab => .ok ⟨hab.1, rfl, hab.2⟩
    rw [h.eq]
  · rw [h.find hr]
    refine .bind (P := fun a b => b = a) .same fun a b hab => ?_
    subst hab
    cases b with
    | none => exact .bind (h.searchRefresh hr _) fun ⟨_, _⟩ ⟨_, _⟩ hab => .ok ⟨hab.1, rfl, hab.2⟩
    | some b =>
      obtain ⟨i, e⟩ := b
      dsimp only
      rw [hd, hw]
      generalize (if s.fwd = true then i + s.data.length else i) = j
      generalize Hist.showItem _ e = it
      refine .bind (hr.setWithIdx j it) fun r r' hr => ?_
      have h3 : Search.Tw { s with markStart := i, markEnd := i + s.data.length }
          { s' with fwd := s.fwd, data := s.data, markStart := i, markEnd := i + s.data.length } :=
        ⟨h.w, h.w', by rw [h.eq]⟩
      exact .bind (h3.searchRefresh hr j) fun ⟨_, _⟩ ⟨_, _⟩ hab => .ok ⟨hab.1, rfl, hab.2⟩

theorem backspace {s s' : Search} (h : s.Tw s') {r r' : RB} (hr : r.Tw r') (cfg : HCfg) (hi : Hist) :
    Both Tri (Search.searchBackspace U d cfg s hi r) (Search.searchBackspace U' d' cfg s' hi r') := by
  have hd : s'.data = s.data := by rw [h.eq]
  unfold Search.searchBackspace
  rw [hd]
  refine .ite Iff.rfl (fun _ => ?_) (fun _ => .ok ⟨h, rfl, hr⟩)
  exact search (s := { s with data := s.data.dropLast }) (s' := { s' with data := s.data.dropLast }) ⟨h.w, h.w', by rw [h.eq]⟩ hr _ _ _

theorem char {s s' : Search} (h : s.Tw s') {r r' : RB} (hr : r.Tw r') (cfg : HCfg) (hi : Hist) (k : Rune) :
    Both Tri (Search.searchChar U d cfg k s hi r) (Search.searchChar U' d' cfg k s' hi r') := by
  have hd : s'.data = s.data := by rw [h.eq]
  unfold Search.searchChar
  rw [hd]
  exact search (s := { s with data := s.data ++ [k] }) (s' := { s' with data := s.data ++ [k] }) ⟨h.w, h.w', by rw [h.eq]⟩ hr _ _ _

theorem mode {s s' : Search} (h : s.Tw s') {r r' : RB} (hr : r.Tw r') (cfg : HCfg) (hi : Hist) (f : Bool) :
    Both (fun a b => b.1 = a.1 ∧ Tri a.2 b.2) (Search.searchMode U d cfg f s hi r) (Search.searchMode U' d' cfg f s' hi r') := by
  have hm : s'.inMode = s.inMode := by rw [h.eq]
  have h2 : Search.Tw { s with inMode := true, fwd := f, source := hi.current } { s' with inMode := true, fwd := f, source := hi.current } :=
    ⟨h.w, h.w', by rw [h.eq]⟩
  unfold Search.searchMode
  rw [if_neg h.w, if_neg h.w']
  dsimp only
  refine .ite (by rw [hm]) (fun _ => ?_) (fun _ => ?_)
  · exact .bind (h2.search hr _ _ _) fun ⟨_, _, _⟩ ⟨_, _, _⟩ hab => .ok ⟨rfl, hab⟩
  · exact .bind (h2.searchRefresh hr _) fun ⟨_, _⟩ ⟨_, _⟩ hab => .ok ⟨rfl, hab.1, rfl, hab.2⟩

theorem exit {s s' : Search} (h : s.Tw s') {r r' : RB} (hr : r.Tw r') (hi : Hist) (v : Bool) :
    Both Tri (Search.exitSearchMode U d v s hi r) (Search.exitSearchMode U' d' v s' hi r') := by
  have hm : s'.source = s.source := by rw [h.eq]
  unfold Search.exitSearchMode
  dsimp only
  refine .ite Iff.rfl (fun _ => ?_) (fun _ => .ok ⟨⟨h.w, h.w', by rw [h.eq]⟩, rfl, hr⟩)
  rw [hm]
  cases s.source with
  | none => exact .errL
  | some x => exact .bind (hr.set _) fun a b hab => .ok ⟨⟨h.w, h.w', by rw [h.eq]⟩, rfl, hab⟩

end Search.Tw

/-! ### Completion -/

/-- The same completion in two windows; without a completer the list is closed. -/
structure Comp.Tw (auto : Option Completer) (c c' : Comp) : Prop where
  w : c.width ≠ 0
  w' : c'.width ≠ 0
  eq : c' = { c with width := c'.width, colNum := c'.colNum }
  shut : auto = none → c.inSelect = false ∧ c.inComplete = false

/-- Completion and line. -/
def Duo (auto : Option Completer) (a b : Comp × RB) : Prop := Comp.Tw auto a.1 b.1 ∧ a.2.Tw b.2

namespace Comp.Tw
variable {auto : Option Completer}

theorem exitSelect {c c' : Comp} (h : c.Tw auto c') : c.exitSelect.Tw auto c'.exitSelect :=
  ⟨h.w, h.w', by rw [h.eq]; rfl, fun e => ⟨rfl, (h.shut e).2⟩⟩

theorem exitComplete {c c' : Comp} (h : c.Tw auto c') : c.exitComplete.Tw auto c'.exitComplete :=
  ⟨h.w, h.w', by rw [h.eq]; rfl, fun _ => ⟨rfl, rfl⟩⟩

theorem completeRefresh {c c' : Comp} (h : c.Tw auto c') {r r' : RB} (hr : r.Tw r') :
    Both (Duo auto) (c.completeRefresh U r) (c'.completeRefresh U' r') := by
  intro a b h1 h2
  obtain ⟨e1, _, e2⟩ := Comp.completeRefresh_ok (c' := a.1) (r' := a.2) h1
  obtain ⟨e3, _, e4⟩ := Comp.completeRefresh_ok (c' := b.1) (r' := b.2) h2
  refine ⟨⟨?_, ?_, ?_, ?_⟩, e3.trans (Eq.trans hr e1.symm)⟩
  · rw [e2]; exact h.w
  · rw [e4]; exact h.w'
  · rw [e4, e2, h.eq]
  · rw [e2]; exact h.shut

theorem nextCandidate {c c' : Comp} (h : c.Tw auto c') (i : Int) : Both (fun a b => a.Tw auto b) (c.nextCandidate i) (c'.nextCandidate i) := by
  have e1 : c'.choise = c.choise := by rw [h.eq]
  have e2 : c'.candidate = c.candidate := by rw [h.eq]
  unfold Comp.nextCandidate
  rw [e1, e2]
  refine .bind .same fun a b hab => ?_
  subst hab
  exact .ok ⟨h.w, h.w', by rw [h.eq], h.shut⟩

theorem doSelect {c c' : Comp} (h : c.Tw auto c') {r r' : RB} (hr : r.Tw r') :
    Both (Duo auto) (c.doSelect U d r) (c'.doSelect U' d' r') := by
  have e2 : c'.candidate = c.candidate := by rw [h.eq]
  unfold Comp.doSelect
  rw [e2]
  split
  · exact .bind (hr.writeRunes _) fun a b hab => .ok ⟨h.exitComplete, hab⟩
  · exact .bind (h.nextCandidate 1) fun a b hab => hab.completeRefresh hr

theorem enterSelect {c c' : Comp} (h : c.Tw auto c') (ha : auto ≠ none) {r r' : RB} (hr : r.Tw r') :
    Both (Duo auto) (c.enterSelect U r) (c'.enterSelect U' r') := by
  unfold Comp.enterSelect
  exact completeRefresh (c := { c with inSelect := true, choise := -1 }) (c' := { c' with inSelect := true, choise := -1 })
    ⟨h.w, h.w', by rw [h.eq], fun e => absurd e ha⟩ hr

theorem enterComplete {c c' : Comp} (h : c.Tw auto c') (ha : auto ≠ none) {r r' : RB} (hr : r.Tw r') (off : Int) (cs : List (List Rune)) :
    Both (Duo auto) (Comp.enterComplete U off cs c r) (Comp.enterComplete U' off cs c' r') := by
  unfold Comp.enterComplete
  exact completeRefresh (c := { c with inComplete := true, candidate := cs, off := off })
    (c' := { c' with inComplete := true, candidate := cs, off := off }) ⟨h.w, h.w', by rw [h.eq], fun e => absurd e ha⟩ hr

theorem onComplete {c c' : Comp} (h : c.Tw auto c') {r r' : RB} (hr : r.Tw r') :
    Both (fun a b => b.1 = a.1 ∧ Duo auto a.2 b.2) (Comp.onComplete U d auto c r) (Comp.onComplete U' d' auto c' r') := by
  have e1 : c'.inSelect = c.inSelect := by rw [h.eq]
  have e2 : c'.inComplete = c.inComplete := by rw [h.eq]
  have e3 : c'.sameSource r' = c.sameSource r := by
    unfold Comp.sameSource
    rw [hr.buf, h.eq]
  unfold Comp.onComplete
  rw [if_neg h.w, if_neg h.w', e1, e2, e3]
  refine .ite Iff.rfl (fun _ => ?_) (fun _ => ?_)
  · exact .bind (h.doSelect hr) fun a b hab => .ok ⟨rfl, hab⟩
  · refine .ite Iff.rfl (fun hc => ?_) (fun _ => ?_)
    · have ha : auto ≠ none := fun e => by have := (h.shut e).2; rw [this] at hc; exact absurd hc.1 (by decide)
      exact .bind (h.enterSelect ha hr) fun a b hab => .bind (hab.1.doSelect hab.2) fun a b hab => .ok ⟨rfl, hab⟩
    · cases auto with
      | none => exact .errL
      | some f =>
        dsimp only
        have h2 : Comp.Tw (some f) { c.exitSelect with source := some r.buf } { c'.exitSelect with source := some r'.buf } :=
          ⟨h.w, h.w', by rw [h.exitSelect.eq, hr.buf], fun e => by cases e⟩
        rw [hr.buf, hr.idx]
        rw [hr.buf] at h2
        have e4 : c'.exitSelect.inComplete = c.exitSelect.inComplete := by rw [h.exitSelect.eq]
        rcases f r.buf r.idx with ⟨_ | ⟨n, ns⟩, off⟩
        · exact .ok ⟨rfl, h2.exitComplete, hr⟩
        · dsimp only
          rw [e4]
          refine .ite Iff.rfl (fun _ => ?_) (fun _ => ?_)
          · refine .ite Iff.rfl (fun _ => ?_) (fun _ => ?_)
            · exact .bind (hr.writeRunes _) fun a b hab => .ok ⟨rfl, h2.exitComplete, hab⟩
            · refine .bind .same fun a b hab => ?_
              subst hab
              refine .ite Iff.rfl (fun _ => ?_) (fun _ => ?_)
              · exact .bind (hr.writeRunes _) fun a b hab => .ok ⟨rfl, h2.exitComplete, hab⟩
              · exact .bind (h2.enterComplete (by simp) hr _ _) fun a b hab => .ok ⟨rfl, hab⟩
          · exact .bind (h2.enterComplete (by simp) hr _ _) fun a b hab => .ok ⟨rfl, hab⟩

theorem selectKey {c c' : Comp} (h : c.Tw auto c') {r r' : RB} (hr : r.Tw r') {k : Rune} (hk : ¬ ColKey k) :
    Both (fun a b => b.1 = a.1 ∧ Duo auto a.2 b.2) (Comp.selectKey U d k c r) (Comp.selectKey U' d' k c' r') := by
  have e1 : c'.choise = c.choise := by rw [h.eq]
  have e2 : c'.candidate = c.candidate := by rw [h.eq]
  have n1 : ¬ k = CharLineStart := fun e => hk (.inl e)
  have n2 : ¬ k = CharLineEnd := fun e => hk (.inr (.inl e))
  have n3 : ¬ k = CharNext := fun e => hk (.inr (.inr (.inl e)))
  have n4 : ¬ k = CharPrev := fun e => hk (.inr (.inr (.inr e)))
  unfold Comp.selectKey
  simp only [if_neg n1, if_neg n2, if_neg n3, if_neg n4]
  refine .ite Iff.rfl (fun _ => ?_) (fun _ => .ite Iff.rfl (fun _ => .ok ⟨rfl, h.exitSelect, hr⟩) (fun _ =>
    .ite Iff.rfl (fun _ => ?_) (fun _ => .ite Iff.rfl (fun _ => .ok ⟨rfl, h.exitComplete, hr⟩) (fun _ =>
      .ite Iff.rfl (fun _ => ?_) (fun _ => .ok ⟨rfl, h.exitSelect, hr⟩)))))
  · have e3 : c'.chosen = c.chosen := by unfold Comp.chosen; rw [e1, e2]
    rw [e3]
    refine .bind .same fun a b hab => ?_
    subst hab
    exact .bind (hr.writeRunes _) fun a b hab => .ok ⟨rfl, h.exitComplete, hab⟩
  · exact .bind (h.doSelect hr) fun a b hab => .ok ⟨rfl, hab⟩
  · exact .bind (h.nextCandidate _) fun a b hab => .ok ⟨rfl, hab, hr⟩

theorem handleSelect {c c' : Comp} (h : c.Tw auto c') {r r' : RB} (hr : r.Tw r') {k : Rune} (hk : ¬ ColKey k) :
    Both (fun a b => b.1 = a.1 ∧ Duo auto a.2 b.2) (Comp.handleSelect U d k c r) (Comp.handleSelect U' d' k c' r') := by
  unfold Comp.handleSelect
  refine .bind (h.selectKey hr hk) fun a b hab => ?_
  refine .ite (by rw [hab.1]) (fun _ => ?_) (fun _ => .ok ⟨rfl, hab.2⟩)
  exact .bind (hab.2.1.completeRefresh hab.2.2) fun a b hab => .ok ⟨rfl, hab⟩

end Comp.Tw

/-! ### The loop -/

/-- Two states that differ in the display only, in windows that have a width.  With a completer, no key to come moves by rows or columns. -/
inductive Op.Tw (c : OCfg) : Op → Op → Prop where
  | mk {rb rb' : RB} {s s' : Search} {cm cm' : Comp} {hist : Hist} {v : Bool} {inp : List Rune} {g k : Bool} {ev : List Event} {st : Bool} :
    rb.Tw rb' → s.Tw s' → cm.Tw c.auto cm' → (c.auto ≠ none → ∀ x ∈ 0 :: inp, ¬ ColKey (c.passed x)) →
    Op.Tw c ⟨rb, hist, s, cm, v, inp, g, k, ev, st⟩ ⟨rb', hist, s', cm', v, inp, g, k, ev, st⟩

/-- The results of the key switch. -/
structure Op.KeyRes.Tw (c : OCfg) (a b : Op.KeyRes) : Prop where
  op : a.op.Tw c b.op
  s : b.keepSearch = a.keepSearch
  cm : b.keepComplete = a.keepComplete
  u : b.update = a.update

namespace Op.Tw
variable {c : OCfg}

/-- Results made of a value and a state. -/
def With (α) (c : OCfg) (a b : α × Op) : Prop := b.1 = a.1 ∧ a.2.Tw c b.2

theorem readRune {o o' : Op} (h : o.Tw c o') :
    Both (fun a b => With Rune c a b ∧ (c.auto ≠ none → ¬ ColKey (c.passed a.1))) o.readRune o'.readRune := by
  obtain ⟨hr, hs, hc, hi⟩ := h
  unfold Op.readRune
  refine .ite Iff.rfl (fun _ => .errL) (fun _ => ?_)
  dsimp only
  split
  · exact .ok ⟨⟨rfl, .mk hr hs hc hi⟩, fun ha => hi ha _ List.mem_cons_self⟩
  · next r rest =>
    refine .ok ⟨⟨rfl, .mk hr hs hc fun ha x hx => hi ha x ?_⟩, fun ha => hi ha _ (List.mem_cons_of_mem _ List.mem_cons_self)⟩
    rcases List.mem_cons.1 hx with rfl | hx
    · exact List.mem_cons_self
    · exact List.mem_cons_of_mem _ (List.mem_cons_of_mem _ hx)

theorem bell {o o' : Op} (h : o.Tw c o') : o.bell.Tw c o'.bell := by obtain ⟨hr, hs, hc, hi⟩ := h; exact .mk hr hs hc hi
theorem kickRead {o o' : Op} (h : o.Tw c o') : o.kickRead.Tw c o'.kickRead := by obtain ⟨hr, hs, hc, hi⟩ := h; exact .mk hr hs hc hi
theorem insert {o o' : Op} (h : o.Tw c o') (b : Bool) : Op.Tw c { o with vimNormal := b } { o' with vimNormal := b } := by
  obtain ⟨hr, hs, hc, hi⟩ := h; exact .mk hr hs hc hi
theorem rb {o o' : Op} (h : o.Tw c o') {r r' : RB} (hr : r.Tw r') : Op.Tw c { o with rb := r } { o' with rb := r' } := by
  obtain ⟨_, hs, hc, hi⟩ := h; exact .mk hr hs hc hi
theorem hist {o o' : Op} (h : o.Tw c o') (x : Hist) : Op.Tw c { o with hist := x } { o' with hist := x } := by
  obtain ⟨hr, hs, hc, hi⟩ := h; exact .mk hr hs hc hi
theorem exitComplete {o o' : Op} (h : o.Tw c o') :
    Op.Tw c { o with comp := o.comp.exitComplete } { o' with comp := o'.comp.exitComplete } := by
  obtain ⟨hr, hs, hc, hi⟩ := h; exact .mk hr hs hc.exitComplete hi

theorem r {o o' : Op} (h : o.Tw c o') : o.rb.Tw o'.rb := by obtain ⟨hr, hs, hc, hi⟩ := h; exact hr
theorem inMode {o o' : Op} (h : o.Tw c o') : o'.search.inMode = o.search.inMode := by obtain ⟨hr, hs, hc, hi⟩ := h; show _ = _; rw [hs.eq]
theorem inComplete {o o' : Op} (h : o.Tw c o') : o'.comp.inComplete = o.comp.inComplete := by obtain ⟨hr, hs, hc, hi⟩ := h; show _ = _; rw [hc.eq]
theorem inSelect {o o' : Op} (h : o.Tw c o') : o'.comp.inSelect = o.comp.inSelect := by obtain ⟨hr, hs, hc, hi⟩ := h; show _ = _; rw [hc.eq]
theorem events {o o' : Op} (h : o.Tw c o') : o'.events = o.events := by obtain ⟨hr, hs, hc, hi⟩ := h; rfl
theorem stopped {o o' : Op} (h : o.Tw c o') : o'.stopped = o.stopped := by obtain ⟨hr, hs, hc, hi⟩ := h; rfl
theorem hists {o o' : Op} (h : o.Tw c o') : o'.hist = o.hist := by obtain ⟨hr, hs, hc, hi⟩ := h; rfl
theorem vimN {o o' : Op} (h : o.Tw c o') : o'.vimNormal = o.vimNormal := by obtain ⟨hr, hs, hc, hi⟩ := h; rfl

theorem updateHistory {o o' : Op} (h : o.Tw c o') : (o.updateHistory c).Tw c (o'.updateHistory (c.on U' d')) := by
  obtain ⟨hr, hs, hc, hi⟩ := h
  unfold Op.updateHistory
  dsimp only
  rw [hr.buf]
  exact .mk hr hs hc hi

theorem edit {o o' : Op} (h : o.Tw c o') (k : Cmd) : Both (Op.Tw c) (o.edit c k) (o'.edit (c.on U' d') k) :=
  .bind (h.r.apply k) fun _ _ hr => .ok (h.rb hr)
theorem refreshNil {o o' : Op} (h : o.Tw c o') : Both (Op.Tw c) (o.refreshNil c) (o'.refreshNil (c.on U' d')) :=
  .bind h.r.refreshNil fun _ _ hr => .ok (h.rb hr)
theorem clean {o o' : Op} (h : o.Tw c o') : Both (Op.Tw c) (o.clean c) (o'.clean (c.on U' d')) :=
  .bind h.r.clean fun _ _ hr => .ok (h.rb hr)
theorem refresh {o o' : Op} (h : o.Tw c o') : Both (Op.Tw c) (o.refresh c) (o'.refresh (c.on U' d')) :=
  .ite (by obtain ⟨hr, hs, hc, hi⟩ := h; rfl) (fun _ => h.refreshNil) (fun _ => .ok h)

theorem exitSearch {o o' : Op} (h : o.Tw c o') (b : Bool) : Both (Op.Tw c) (o.exitSearch c b) (o'.exitSearch (c.on U' d') b) := by
  obtain ⟨hr, hs, hc, hi⟩ := h
  exact .bind (hs.exit hr _ b) fun ⟨_, _, _⟩ ⟨_, _, _⟩ ⟨h1, h2, h3⟩ => by cases h2; exact .ok (.mk h3 h1 hc hi)

theorem enterSearch {o o' : Op} (h : o.Tw c o') (b : Bool) : Both (With Bool c) (o.enterSearch c b) (o'.enterSearch (c.on U' d') b) := by
  obtain ⟨hr, hs, hc, hi⟩ := h
  exact .bind (hs.mode hr _ _ b) fun ⟨_, _, _, _⟩ ⟨_, _, _, _⟩ ⟨h0, h1, h2, h3⟩ => by cases h2; exact .ok ⟨h0, .mk h3 h1 hc hi⟩

theorem searchChar {o o' : Op} (h : o.Tw c o') (r : Rune) : Both (Op.Tw c) (o.searchChar c r) (o'.searchChar (c.on U' d') r) := by
  obtain ⟨hr, hs, hc, hi⟩ := h
  exact .bind (hs.char hr _ _ r) fun ⟨_, _, _⟩ ⟨_, _, _⟩ ⟨h1, h2, h3⟩ => by cases h2; exact .ok (.mk h3 h1 hc hi)

theorem searchBackspace {o o' : Op} (h : o.Tw c o') : Both (Op.Tw c) (o.searchBackspace c) (o'.searchBackspace (c.on U' d')) := by
  obtain ⟨hr, hs, hc, hi⟩ := h
  exact .bind (hs.backspace hr _ _) fun ⟨_, _, _⟩ ⟨_, _, _⟩ ⟨h1, h2, h3⟩ => by cases h2; exact .ok (.mk h3 h1 hc hi)

theorem onComplete {o o' : Op} (h : o.Tw c o') : Both (With Bool c) (o.onComplete c) (o'.onComplete (c.on U' d')) := by
  obtain ⟨hr, hs, hc, hi⟩ := h
  exact .bind (hc.onComplete hr) fun ⟨_, _, _⟩ ⟨_, _, _⟩ ⟨h0, h1, h2⟩ => .ok ⟨h0, .mk h2 hs h1 hi⟩

theorem completeRefresh {o o' : Op} (h : o.Tw c o') : Both (Op.Tw c) (o.completeRefresh c) (o'.completeRefresh (c.on U' d')) := by
  obtain ⟨hr, hs, hc, hi⟩ := h
  exact .bind (hc.completeRefresh hr) fun ⟨_, _⟩ ⟨_, _⟩ ⟨h1, h2⟩ => .ok (.mk h2 hs h1 hi)

/-! Vim -/

/-- Results of the vim commands. -/
def Opt (c : OCfg) : Option (Rune × Op) → Option (Rune × Op) → Prop
  | none, none => True
  | some a, some b => With Rune c a b
  | _, _ => False

theorem vimMovement {o o' : Op} (h : o.Tw c o') (r : Rune) : Both (Opt c) (o.vimMovement c r) (o'.vimMovement (c.on U' d') r) := by
  have ed : ∀ (k : Cmd) {o o' : Op}, o.Tw c o' → Both (Opt c) (do let o ← o.edit c k; .ok (some (0, o)) : R (Option (Rune × Op)))
      (do let o ← o'.edit (c.on U' d') k; .ok (some (0, o))) :=
    fun k o o' h => .bind (h.edit k) fun _ _ h => .ok ⟨rfl, h⟩
  have pu : ∀ (x : Rune) {o o' : Op}, o.Tw c o' → Both (Opt c) (.ok (some (x, o))) (.ok (some (x, o'))) := fun x o o' h => .ok ⟨rfl, h⟩
  unfold Op.vimMovement
  dsimp only
  refine .ite Iff.rfl (fun _ => pu _ h) fun _ => .ite Iff.rfl (fun _ => pu _ h) fun _ => .ite Iff.rfl (fun _ => pu _ h) fun _ =>
    .ite Iff.rfl (fun _ => pu _ h) fun _ => .ite Iff.rfl (fun _ => ed _ h) fun _ => .ite Iff.rfl (fun _ => ed _ h) fun _ =>
    .ite Iff.rfl (fun _ => .bind (h.edit _) fun _ _ h => .ite (by rw [h.r.idx, h.r.buf]) (fun _ => ed _ h) fun _ => pu _ h) fun _ =>
    .ite Iff.rfl (fun _ => .bind h.readRune fun ⟨_, _⟩ ⟨_, _⟩ ⟨⟨h0, h⟩, _⟩ => by cases h0; exact ed _ h) fun _ =>
    .ite Iff.rfl (fun _ => .bind h.readRune fun ⟨x, _⟩ ⟨_, _⟩ ⟨⟨h0, h⟩, _⟩ => ?_) fun _ => .ite Iff.rfl (fun _ => ed _ h) fun _ =>
    .ite Iff.rfl (fun _ => ed _ h) fun _ => .ite Iff.rfl (fun _ => ed _ h) fun _ => .ite Iff.rfl (fun _ => ed _ h) fun _ =>
    .ite Iff.rfl (fun _ => .bind h.readRune fun ⟨x, _⟩ ⟨_, _⟩ ⟨⟨h0, h⟩, _⟩ => ?_) fun _ => .ok trivial
  · cases h0
    exact .ite Iff.rfl (fun _ => ed _ h) fun _ => .ite Iff.rfl (fun _ => ed _ h) fun _ => .ite Iff.rfl (fun _ => ed _ h) fun _ =>
      .ite Iff.rfl (fun _ => ed _ h) fun _ => pu _ h
  · cases h0
    exact .ite Iff.rfl (fun _ => pu _ h) fun _ => ed _ h

theorem vimEnterInsert {o o' : Op} (h : o.Tw c o') (r : Rune) : Both (Opt c) (o.vimEnterInsert c r) (o'.vimEnterInsert (c.on U' d') r) := by
  have ed : ∀ (k : Cmd) {o o' : Op}, o.Tw c o' →
      Both (Opt c) (do let o ← o.edit c k; .ok (some (0, { o with vimNormal := false })) : R (Option (Rune × Op)))
      (do let o ← o'.edit (c.on U' d') k; .ok (some (0, { o with vimNormal := false }))) :=
    fun k o o' h => .bind (h.edit k) fun _ _ h => .ok ⟨rfl, h.insert _⟩
  have pu : ∀ (x : Rune) {o o' : Op}, o.Tw c o' → Both (Opt c) (.ok (some (x, { o with vimNormal := false })))
    (.ok (some (x, { o' with vimNormal := false }))) := fun x o o' h => .ok ⟨rfl, h.insert _⟩
  unfold Op.vimEnterInsert
  dsimp only
  refine .ite Iff.rfl (fun _ => pu _ h) fun _ => .ite Iff.rfl (fun _ => ed _ h) fun _ => .ite Iff.rfl (fun _ => ed _ h) fun _ =>
    .ite Iff.rfl (fun _ => ed _ h) fun _ => .ite Iff.rfl (fun _ => ed _ h) fun _ => .ite Iff.rfl (fun _ => ed _ h) fun _ =>
    .ite Iff.rfl (fun _ => .bind h.readRune fun ⟨x, _⟩ ⟨_, _⟩ ⟨⟨h0, h⟩, _⟩ => ?_) fun _ => .ok trivial
  cases h0
  exact .ite Iff.rfl (fun _ => ed _ h) fun _ => .ite Iff.rfl (fun _ => ed _ h) fun _ => .ite Iff.rfl (fun _ => ed _ h) fun _ =>
      .ite Iff.rfl (fun _ => ed _ h) fun _ => pu _ h

theorem vimNormalKey {o o' : Op} (h : o.Tw c o') (r : Rune) :
    Both (With Rune c) (o.vimNormalKey c r) (o'.vimNormalKey (c.on U' d') r) := by
  unfold Op.vimNormalKey
  refine .ite Iff.rfl (fun _ => .ok ⟨rfl, h.insert _⟩) fun _ => .bind (h.vimMovement r) fun x y hxy => ?_
  cases x with
  | some x =>
    cases y with
    | some y => exact .ok hxy
    | none => exact hxy.elim
  | none =>
    cases y with
    | some y => exact hxy.elim
    | none =>
      refine .bind (h.vimEnterInsert r) fun x y hxy => ?_
      cases x with
      | some x =>
        cases y with
        | some y => exact .ok hxy
        | none => exact hxy.elim
      | none =>
        cases y with
        | some y => exact hxy.elim
        | none => exact .ok ⟨rfl, h.bell⟩

theorem handleVim {o o' : Op} (h : o.Tw c o') (r : Rune) : Both (With Rune c) (o.handleVim c r) (o'.handleVim (c.on U' d') r) :=
  .ite (by rw [h.vimN]) (fun _ => h.vimNormalKey r) fun _ => .ite Iff.rfl (fun _ => .ok ⟨rfl, h.insert _⟩) fun _ => .ok ⟨rfl, h⟩

/-! The key switch -/

theorem key0 {o o' : Op} (h : o.Tw c o') {a b u : Bool} : Both (Op.KeyRes.Tw c) (.ok ⟨o, a, b, u⟩) (.ok ⟨o', a, b, u⟩) := .ok ⟨h, rfl, rfl, rfl⟩

theorem keyBell {o o' : Op} (h : o.Tw c o') : Both (Op.KeyRes.Tw c) (o.keyBell c) (o'.keyBell (c.on U' d')) := by
  unfold Op.keyBell
  dsimp only
  have fin : ∀ {o o' : Op}, o.Tw c o' →
      Both (Op.KeyRes.Tw c) (if o.comp.inComplete = true then (do let o ← Op.refreshNil c { o with comp := o.comp.exitComplete }; .ok { op := o } : R Op.KeyRes) else
      (do let o ← Except.ok o; .ok { op := o })) (if o'.comp.inComplete = true then
        (do let o ← Op.refreshNil (c.on U' d') { o' with comp := o'.comp.exitComplete }; .ok { op := o }) else
      (do let o ← Except.ok o'; .ok { op := o })) :=
    fun h => .ite (by rw [h.inComplete]) (fun _ => .bind h.exitComplete.refreshNil fun _ _ h => h.key0) fun _ => h.key0
  exact .ite (by rw [h.inMode]) (fun _ => .bind (h.exitSearch _) fun _ _ h => .bind h.refreshNil fun _ _ h => fin h) fun _ => fin h

theorem keyTab {o o' : Op} (h : o.Tw c o') : Both (Op.KeyRes.Tw c) (o.keyTab c) (o'.keyTab (c.on U' d')) := by
  unfold Op.keyTab
  rw [show (c.on U' d').auto = c.auto from rfl]
  split
  · exact h.bell.key0
  · refine .bind h.onComplete fun ⟨_, _⟩ ⟨_, _⟩ ⟨h0, h⟩ => ?_
    cases h0
    exact .ite Iff.rfl (fun _ => h.key0) fun _ => h.bell.key0

theorem keySearch {o o' : Op} (h : o.Tw c o') (b : Bool) : Both (Op.KeyRes.Tw c) (o.keySearch c b) (o'.keySearch (c.on U' d') b) := by
  unfold Op.keySearch
  refine .bind (h.enterSearch b) fun ⟨_, _⟩ ⟨_, _⟩ ⟨h0, h⟩ => ?_
  cases h0
  exact .ite Iff.rfl (fun _ => h.key0) fun _ => h.bell.key0

theorem keyBackspace {o o' : Op} (h : o.Tw c o') : Both (Op.KeyRes.Tw c) (o.keyBackspace c) (o'.keyBackspace (c.on U' d')) := by
  unfold Op.keyBackspace
  refine .ite (by rw [h.inMode]) (fun _ => .bind h.searchBackspace fun _ _ h => h.key0) fun _ => .ite (by rw [h.r.buf]) (fun _ => h.bell.key0) fun _ =>
    .bind (h.edit _) fun _ _ h => .ite (by rw [h.inComplete]) (fun _ => .bind h.onComplete fun ⟨_, _⟩ ⟨_, _⟩ ⟨_, h⟩ => h.key0) fun _ => h.key0

theorem keyText {o o' : Op} (h : o.Tw c o') (r : Rune) : Both (Op.KeyRes.Tw c) (o.keyText c r) (o'.keyText (c.on U' d') r) := by
  unfold Op.keyText
  refine .ite (by rw [h.inMode]) (fun _ => .bind (h.searchChar r) fun _ _ h => h.key0) fun _ =>
    .bind (h.edit _) fun _ _ h => .ite (by rw [h.inComplete]) (fun _ => .bind h.onComplete fun ⟨_, _⟩ ⟨_, _⟩ ⟨_, h⟩ => h.key0) fun _ => h.key0

theorem keyPrev {o o' : Op} (h : o.Tw c o') : Both (Op.KeyRes.Tw c) (o.keyPrev c) (o'.keyPrev (c.on U' d')) := by
  unfold Op.keyPrev
  rw [h.hists]
  split
  · exact .bind ((h.hist _).edit _) fun _ _ h => h.key0
  · exact (h.hist _).bell.key0

theorem keyNext {o o' : Op} (h : o.Tw c o') : Both (Op.KeyRes.Tw c) (o.keyNext c) (o'.keyNext (c.on U' d')) := by
  unfold Op.keyNext
  rw [h.hists]
  split
  · exact .bind ((h.hist _).edit _) fun _ _ h => h.key0
  · exact (h.hist _).bell.key0

/-- The line is taken out and the result is sent. -/
theorem send {o o' : Op} (h : o.Tw c o') (x : Hist) (e : Event) :
    Op.Tw c { o with rb := o.rb.reset.2, hist := x, events := o.events ++ [e] } { o' with rb := o'.rb.reset.2, hist := x, events := o'.events ++ [e] } := by
  obtain ⟨hr, hs, hc, hi⟩ := h
  exact .mk hr.reset.2 hs hc hi

theorem keyEnter {o o' : Op} (h : o.Tw c o') : Both (Op.KeyRes.Tw c) (o.keyEnter c) (o'.keyEnter (c.on U' d')) := by
  have fin : ∀ {o o' : Op} (data : List Rune), o.Tw c o' → Both (Op.KeyRes.Tw c)
      (if c.noSave = false then (do let h ← o.hist.new c.h data; .ok { op := { o with rb := o.rb.reset.2, hist := h, events := o.events ++ [.line data] } } : R Op.KeyRes)
        else .ok { op := { o with rb := o.rb.reset.2, events := o.events ++ [.line data] }, update := false })
      (if c.noSave = false then (do let h ← o'.hist.new c.h data; .ok { op := { o' with rb := o'.rb.reset.2, hist := h, events := o'.events ++ [.line data] } })
        else .ok { op := { o' with rb := o'.rb.reset.2, events := o'.events ++ [.line data] }, update := false }) := by
    intro o o' data h
    refine .ite Iff.rfl (fun _ => ?_) fun _ => ?_
    · rw [h.hists]
      refine .bind .same fun a b hab => ?_
      subst hab
      exact (h.send b _).key0
    · have := h.send o.hist (.line data)
      rw [← h.hists] at this
      refine .ok ⟨?_, rfl, rfl, rfl⟩
      obtain ⟨hr, hs, hc, hi⟩ := h
      exact .mk hr.reset.2 hs hc hi
  have go : ∀ {o o' : Op}, o.Tw c o' → Both (Op.KeyRes.Tw c)
      (do
        let o ← o.edit c .toEnd
        if c.unique = false then do
          let o ← o.edit c (.insert [10])
          if o.rb.reset.1.length = 0 then .error .panic
          else if c.noSave = false then (do let h ← o.hist.new c.h (o.rb.reset.1.take (o.rb.reset.1.length - 1)); .ok { op := { o with rb := o.rb.reset.2, hist := h, events := o.events ++ [.line (o.rb.reset.1.take (o.rb.reset.1.length - 1))] } })
            else .ok { op := { o with rb := o.rb.reset.2, events := o.events ++ [.line (o.rb.reset.1.take (o.rb.reset.1.length - 1))] }, update := false }
        else do
          let o ← o.clean c
          if c.noSave = false then (do let h ← o.hist.new c.h o.rb.reset.1; .ok { op := { o with rb := o.rb.reset.2, hist := h, events := o.events ++ [.line o.rb.reset.1] } })
            else .ok { op := { o with rb := o.rb.reset.2, events := o.events ++ [.line o.rb.reset.1] }, update := false } : R Op.KeyRes)
      (do
        let o ← o'.edit (c.on U' d') .toEnd
        if c.unique = false then do
          let o ← o.edit (c.on U' d') (.insert [10])
          if o.rb.reset.1.length = 0 then .error .panic
          else if c.noSave = false then (do let h ← o.hist.new c.h (o.rb.reset.1.take (o.rb.reset.1.length - 1)); .ok { op := { o with rb := o.rb.reset.2, hist := h, events := o.events ++ [.line (o.rb.reset.1.take (o.rb.reset.1.length - 1))] } })
            else .ok { op := { o with rb := o.rb.reset.2, events := o.events ++ [.line (o.rb.reset.1.take (o.rb.reset.1.length - 1))] }, update := false }
        else do
          let o ← o.clean (c.on U' d')
          if c.noSave = false then (do let h ← o.hist.new c.h o.rb.reset.1; .ok { op := { o with rb := o.rb.reset.2, hist := h, events := o.events ++ [.line o.rb.reset.1] } })
            else .ok { op := { o with rb := o.rb.reset.2, events := o.events ++ [.line o.rb.reset.1] }, update := false }) := by
    intro o o' h
    refine .bind (h.edit _) fun o o' h => .ite Iff.rfl (fun _ => .bind (h.edit _) fun o o' h => ?_) fun _ => .bind h.clean fun o o' h => ?_
    · rw [h.r.reset.1]
      exact .ite Iff.rfl (fun _ => .errL) fun _ => fin _ h
    · rw [h.r.reset.1]
      exact fin _ h
  unfold Op.keyEnter
  dsimp only
  refine .ite (by rw [h.inMode]) (fun _ => .bind (h.exitSearch _) fun o o' h => ?_) fun _ => ?_
  · exact go h
  · exact go h

theorem keyDelete {o o' : Op} (h : o.Tw c o') : Both (Op.KeyRes.Tw c) (o.keyDelete c) (o'.keyDelete (c.on U' d')) := by
  unfold Op.keyDelete
  have hn : o'.isNormalMode = o.isNormalMode := by unfold Op.isNormalMode; rw [h.inComplete, h.inMode]
  refine .ite (by rw [h.r.buf, hn]) (fun _ => ?_) (fun _ => ?_)
  · refine .bind h.kickRead.r.delete fun ⟨_, _⟩ ⟨_, _⟩ ⟨h0, hr⟩ => ?_
    cases h0
    exact .ite Iff.rfl (fun _ => (h.kickRead.rb hr).key0) fun _ => (h.kickRead.rb hr).bell.key0
  · dsimp only
    have fin : ∀ {o o' : Op}, o.Tw c o' → Both (Op.KeyRes.Tw c) (if c.unique = true then (do let o ← Op.clean c o; .ok { op := o, update := false } : R Op.KeyRes) else
        (do let o ← Except.ok o; .ok { op := o, update := false })) (if c.unique = true then (do let o ← Op.clean (c.on U' d') o'; .ok { op := o, update := false }) else
        (do let o ← Except.ok o'; .ok { op := o, update := false })) :=
      fun h => .ite Iff.rfl (fun _ => .bind h.clean fun _ _ h => h.key0) fun _ => h.key0
    have go : ∀ {o o' : Op}, o.Tw c o' → Op.Tw c { o with rb := o.rb.reset.2, hist := o.hist.revert, events := o.events ++ [.eof] }
        { o' with rb := o'.rb.reset.2, hist := o'.hist.revert, events := o'.events ++ [.eof] } := fun h => by
      obtain ⟨hr, hs, hc, hi⟩ := h
      exact .mk hr.reset.2 hs hc hi
    exact .ite Iff.rfl (fun _ => .bind (h.edit _) fun o o' h => fin (go h)) fun _ => fin (go h)

theorem keyInterrupt {o o' : Op} (h : o.Tw c o') : Both (Op.KeyRes.Tw c) (o.keyInterrupt c) (o'.keyInterrupt (c.on U' d')) := by
  unfold Op.keyInterrupt
  refine .ite (by rw [h.inMode]) (fun _ => .bind (h.kickRead.exitSearch _) fun _ _ h => h.key0) fun _ => .ite (by rw [h.inComplete]) (fun _ =>
    .bind h.kickRead.exitComplete.refreshNil fun _ _ h => h.key0) fun _ => ?_
  dsimp only
  have go : ∀ {o o' : Op} (x : List Rune), o.Tw c o' → Op.Tw c { o with rb := o.rb.reset.2, hist := o.hist.revert, events := o.events ++ [.interrupt x] }
      { o' with rb := o'.rb.reset.2, hist := o'.hist.revert, events := o'.events ++ [.interrupt x] } := fun x h => by
    obtain ⟨hr, hs, hc, hi⟩ := h
    exact .mk hr.reset.2 hs hc hi
  refine .bind (h.edit _) fun _ _ h => .bind h.refreshNil fun o o' h => ?_
  refine .ite Iff.rfl (fun hu => .bind (h.edit _) fun o o' h => ?_) (fun hu => ?_)
  · rw [h.r.reset.1]
    refine .ite Iff.rfl (fun _ => ?_) fun hu' => absurd hu hu'
    refine .bind (P := fun a b => b = a) (.ite Iff.rfl (fun _ => .errL) fun _ => .ok rfl) fun a b hab => ?_
    subst hab
    exact (go _ h).key0
  · simp only [R.bind_ok]
    rw [h.r.reset.1]
    exact .ite Iff.rfl (fun hu' => absurd hu' hu) fun _ => (go _ h).key0

theorem key {o o' : Op} (h : o.Tw c o') (r : Rune) : Both (Op.KeyRes.Tw c) (o.key c r) (o'.key (c.on U' d') r) := by
  unfold Op.key
  split
  · exact .bind (h.edit _) fun _ _ h => h.key0
  · refine .ite Iff.rfl (fun _ => h.keyBell) fun _ => .ite Iff.rfl (fun _ => h.keyTab) fun _ => .ite Iff.rfl (fun _ => h.keySearch _) fun _ =>
      .ite Iff.rfl (fun _ => h.keySearch _) fun _ => .ite Iff.rfl (fun _ => h.keyBackspace) fun _ =>
      .ite Iff.rfl (fun _ => .bind h.clean fun _ _ h => .bind h.refresh fun _ _ h => h.key0) fun _ =>
      .ite Iff.rfl (fun _ => .bind (h.rb (h.r.write _ _)).refresh fun _ _ h => h.key0) fun _ => .ite Iff.rfl (fun _ => h.keyEnter) fun _ =>
      .ite Iff.rfl (fun _ => h.keyPrev) fun _ => .ite Iff.rfl (fun _ => h.keyNext) fun _ => .ite Iff.rfl (fun _ => h.keyDelete) fun _ =>
      .ite Iff.rfl (fun _ => h.keyInterrupt) fun _ => h.keyText r

theorem listen {k k' : Op.KeyRes} (h : k.Tw c k') (r : Rune) : Both (Op.KeyRes.Tw c) (Op.listen c r k) (Op.listen (c.on U' d') r k') := by
  unfold Op.listen
  rw [show (c.on U' d').listener = c.listener from rfl, h.op.r.buf, h.op.r.idx]
  split
  · exact .ok h
  · dsimp only
    split
    · exact .ok h
    · exact .bind (h.op.r.setWithIdx _ _) fun _ _ hr => .ok ⟨h.op.rb hr, h.s, h.cm, h.u⟩

theorem settle {k k' : Op.KeyRes} (h : k.Tw c k') : Both (Op.Tw c) (Op.settle c k) (Op.settle (c.on U' d') k') := by
  unfold Op.settle
  refine .ite (by rw [h.s, h.op.inMode]) (fun _ => .bind (h.op.exitSearch _) fun _ _ h => h.refreshNil) fun _ =>
    .ite (by rw [h.op.inComplete]) (fun _ => .ite (by rw [h.cm]) (fun _ => h.op.exitComplete.refresh) fun _ =>
      .bind h.op.refreshNil fun _ _ h => h.completeRefresh) fun _ => .ok h.op

theorem finish {k k' : Op.KeyRes} (h : k.Tw c k') : Both (Op.Tw c) (Op.finish c k) (Op.finish (c.on U' d') k') := by
  unfold Op.finish
  exact .bind (settle h) fun _ _ h1 => .ite (by rw [h.u, h1.inMode]) (fun _ => .ok h1.updateHistory) fun _ => .ok h1

theorem dispatch {o o' : Op} (h : o.Tw c o') (r : Rune) : Both (Op.Tw c) (o.dispatch c r) (o'.dispatch (c.on U' d') r) :=
  .bind (h.key r) fun _ _ h => .bind (listen h r) fun _ _ h => finish h

theorem viaVim {o o' : Op} (h : o.Tw c o') (r : Rune) : Both (Op.Tw c) (o.viaVim c r) (o'.viaVim (c.on U' d') r) := by
  unfold Op.viaVim
  refine .ite Iff.rfl (fun _ => .bind (h.handleVim r) fun ⟨_, _⟩ ⟨_, _⟩ ⟨h0, h⟩ => ?_) fun _ => h.dispatch r
  cases h0
  exact .ite Iff.rfl (fun _ => .ok h) fun _ => h.dispatch _

theorem viaMenu {o o' : Op} (h : o.Tw c o') {r : Rune} (hk : c.auto ≠ none → ¬ ColKey r) :
    Both (Op.Tw c) (o.viaMenu c r) (o'.viaMenu (c.on U' d') r) := by
  unfold Op.viaMenu
  refine .ite (by rw [h.inSelect]) (fun hsel => ?_) fun _ => h.viaVim r
  obtain ⟨hr, hs, hc, hi⟩ := h
  have ha : c.auto ≠ none := fun e => by have := (hc.shut e).1; rw [this] at hsel; exact absurd hsel (by decide)
  refine .bind (hc.handleSelect hr (hk ha)) fun ⟨_, _, _⟩ ⟨_, _, _⟩ ⟨h0, h1, h2⟩ => ?_
  cases h0
  refine .ite Iff.rfl (fun _ => .ok (.mk h2 hs h1 hi)) fun _ => .bind (P := Op.Tw c) (refreshNil (.mk h2 hs h1 hi)) fun _ _ h => ?_
  exact .ite Iff.rfl (fun _ => .ok h.updateHistory.kickRead) fun _ => .ite Iff.rfl (fun _ => .ok h.kickRead) fun _ =>
    .ite Iff.rfl (fun _ => .ok h) fun _ => h.viaVim r

theorem handle {o o' : Op} (h : o.Tw c o') {r : Rune} (hk : c.auto ≠ none → ¬ ColKey r) :
    Both (Op.Tw c) (o.handle c r) (o'.handle (c.on U' d') r) := by
  unfold Op.handle
  refine .ite Iff.rfl (fun _ => .ite (by rw [h.r.buf]) (fun _ => .bind h.clean fun _ _ h => .ok ?_) fun _ => h.viaMenu fun _ => by decide)
    fun _ => h.viaMenu hk
  obtain ⟨hr, hs, hc, hi⟩ := h
  exact .mk hr hs hc hi

theorem accept {o o' : Op} (h : o.Tw c o') {r : Rune} (hk : c.auto ≠ none → ¬ ColKey (c.passed r)) :
    Both (Op.Tw c) (o.accept c r) (o'.accept (c.on U' d') r) := by
  unfold Op.accept
  unfold OCfg.passed at hk
  rw [show (c.on U' d').filter = c.filter from rfl]
  cases hf : c.filter with
  | none => rw [hf] at hk; exact h.handle hk
  | some f =>
    rw [hf] at hk
    dsimp only at hk ⊢
    rcases hr : f r with ⟨r', _ | _⟩
    · exact h.kickRead.refreshNil
    · rw [hr] at hk; exact h.handle hk

/-- One iteration of the loop. -/
theorem iter {o o' : Op} (h : o.Tw c o') : Both (Op.Tw c) (o.iter c) (o'.iter (c.on U' d')) := by
  unfold Op.iter
  refine .bind h.readRune fun ⟨_, _⟩ ⟨_, _⟩ ⟨⟨h0, h⟩, hk⟩ => ?_
  cases h0
  exact h.accept hk

/-- The window is resized on both sides. -/
theorem resize {o o' : Op} (h : o.Tw c o') {w w' : Int} (hw : w ≠ 0) (hw' : w' ≠ 0) : (o.resize w).Tw c (o'.resize w') := by
  obtain ⟨hr, hs, hc, hi⟩ := h
  exact .mk hr ⟨hw, hw', by show _ = _; rw [hs.eq]⟩ ⟨hw, hw', by show _ = _; rw [hc.eq], hc.shut⟩ hi

theorem resizeL {o o' : Op} (h : o.Tw c o') {w : Int} (hw : w ≠ 0) : (o.resize w).Tw c o' := by
  obtain ⟨hr, hs, hc, hi⟩ := h
  exact .mk hr ⟨hw, hs.w', by rw [hs.eq]⟩ ⟨hw, hc.w', by rw [hc.eq], hc.shut⟩ hi

theorem resizeR {o o' : Op} (h : o.Tw c o') {w : Int} (hw : w ≠ 0) : o.Tw c (o'.resize w) := by
  obtain ⟨hr, hs, hc, hi⟩ := h
  exact .mk hr ⟨hs.w, hw, by show _ = _; rw [hs.eq]⟩ ⟨hc.w, hw, by show _ = _; rw [hc.eq], hc.shut⟩ hi

theorem resizes {ws ws' : List Int} (hw : ∀ w ∈ ws, w ≠ 0) (hw' : ∀ w ∈ ws', w ≠ 0) {o o' : Op} (h : o.Tw c o') :
    (o.resizes ws).Tw c (o'.resizes ws') := by
  induction ws generalizing o with
  | nil =>
    induction ws' generalizing o' with
    | nil => exact h
    | cons w ws' ih => exact ih (fun x hx => hw' x (List.mem_cons_of_mem _ hx)) (h.resizeR (hw' w List.mem_cons_self))
  | cons w ws ih => exact ih (fun x hx => hw x (List.mem_cons_of_mem _ hx)) (h.resizeL (hw w List.mem_cons_self))

theorem awaitW : ∀ {ws ws' : List (List Int)} {o o' : Op}, (∀ l ∈ ws, ∀ w ∈ l, w ≠ 0) → (∀ l ∈ ws', ∀ w ∈ l, w ≠ 0) → o.Tw c o' →
    Both (With Event c) (o.awaitW c ws) (o'.awaitW (c.on U' d') ws') := by
  intro ws
  induction ws with
  | nil =>
    intro ws' o o' _ _ h
    unfold Op.awaitW
    rw [h.events]
    cases he : o.events with
    | nil => exact .errL
    | cons e es =>
      obtain ⟨hr, hs, hc, hi⟩ := h
      exact .ok ⟨rfl, .mk hr hs hc hi⟩
  | cons w ws ih =>
    intro ws' o o' hw hw' h
    unfold Op.awaitW
    rw [h.events]
    cases he : o.events with
    | cons e es =>
      obtain ⟨hr, hs, hc, hi⟩ := h
      exact .ok ⟨rfl, .mk hr hs hc hi⟩
    | nil =>
      cases ws' with
      | nil => exact .errR
      | cons w' ws' =>
        dsimp only
        refine .ite (by rw [h.stopped]) (fun _ => .errL) fun _ => ?_
        refine .bind (iter (resizes (hw w List.mem_cons_self) (hw' w' List.mem_cons_self) h)) fun _ _ h => ?_
        exact ih (fun l hl => hw l (List.mem_cons_of_mem _ hl)) (fun l hl => hw' l (List.mem_cons_of_mem _ hl)) h

/-- A call of `Readline` in windows that are resized. -/
theorem readlineW {pre pre' : List Int} {ws ws' : List (List Int)} {o o' : Op} (hp : ∀ w ∈ pre, w ≠ 0) (hp' : ∀ w ∈ pre', w ≠ 0)
    (hw : ∀ l ∈ ws, ∀ w ∈ l, w ≠ 0) (hw' : ∀ l ∈ ws', ∀ w ∈ l, w ≠ 0) (h : o.Tw c o') :
    Both (With Event c) (o.readlineW c pre ws) (o'.readlineW (c.on U' d') pre' ws') :=
  .bind (resizes hp hp' h).refreshNil fun _ _ h => awaitW hw hw' h.kickRead

end Op.Tw
end RL
