import Verif.Model.Operation
/-!
# Only reading a key can block

`NB x` says that the computation `x` does not end waiting for somebody else.  Every function of the editing loop has this
property, except the one that reads a key.
-/

namespace RL

/-- The computation does not wait for ever. -/
structure NB {α} (x : R α) : Prop where
  ne : x ≠ .error .block

theorem NB.ok {α} {a : α} : NB (.ok a : R α) := ⟨fun h => by cases h⟩
theorem NB.panic {α} : NB (.error .panic : R α) := ⟨fun h => by cases h⟩
theorem NB.hang {α} : NB (.error .hang : R α) := ⟨fun h => by cases h⟩
theorem NB.bind {α β} {x : R α} {f : α → R β} (hx : NB x) (hf : ∀ a, NB (f a)) : NB (x >>= f) := by
  cases x with
  | ok a => exact hf a
  | error e => exact ⟨fun h => hx.ne (by injection h with h; rw [h])⟩
theorem NB.map {α β} {x : R α} {f : α → β} (hx : NB x) : NB (f <$> x) := by
  cases x with
  | ok a => exact NB.ok
  | error e => exact ⟨fun h => hx.ne (by injection h with h; rw [h])⟩
theorem NB.ite {α} {p : Prop} [Decidable p] {x y : R α} (hx : NB x) (hy : NB y) : NB (if p then x else y) := by
  by_cases h : p
  · rw [if_pos h]; exact hx
  · rw [if_neg h]; exact hy

/-- A computation on results that are not waiting. -/
theorem NB.bind_ok {α β} {x : R α} {f : α → R β} (hx : NB x) (hf : ∀ a, x = .ok a → NB (f a)) : NB (x >>= f) := by
  cases x with
  | ok a => exact hf a rfl
  | error e => exact ⟨fun h => hx.ne (by injection h with h; rw [h])⟩

/-- One known function. -/
syntax "nb1" : tactic
macro_rules | `(tactic| nb1) => `(tactic| with_reducible assumption)
/-- Decompose a computation into known functions. -/
macro "nb" : tactic => `(tactic| repeat' first
  | with_reducible exact NB.ok | with_reducible exact NB.panic | with_reducible exact NB.hang | nb1
  | with_reducible apply NB.ite | with_reducible apply NB.bind | with_reducible apply NB.map | intro _
  | split | dsimp only)

theorem getR_nb {α} {l : List α} {i} : NB (getR l i) := by unfold getR; nb
macro_rules | `(tactic| nb1) => `(tactic| with_reducible exact getR_nb)
theorem sliceFrom_nb {α} {l : List α} {i} : NB (sliceFrom l i) := by unfold sliceFrom; nb
macro_rules | `(tactic| nb1) => `(tactic| with_reducible exact sliceFrom_nb)
theorem sliceTo_nb {α} {l : List α} {i} : NB (sliceTo l i) := by unfold sliceTo; nb
macro_rules | `(tactic| nb1) => `(tactic| with_reducible exact sliceTo_nb)
theorem slice_nb {α} {l : List α} {i j} : NB (slice l i j) := by unfold slice; nb
macro_rules | `(tactic| nb1) => `(tactic| with_reducible exact slice_nb)
theorem repeatR_nb {α} {l : List α} {i} : NB (repeatR l i) := by unfold repeatR; nb
macro_rules | `(tactic| nb1) => `(tactic| with_reducible exact repeatR_nb)
theorem divR_nb {a b} : NB (divR a b) := by unfold divR; nb
macro_rules | `(tactic| nb1) => `(tactic| with_reducible exact divR_nb)
theorem modR_nb {a b} : NB (modR a b) := by unfold modR; nb
macro_rules | `(tactic| nb1) => `(tactic| with_reducible exact modR_nb)

/-! ### runes.go, utils.go -/

theorem matchHere_nb : ∀ {r sub fold}, NB (matchHere r sub fold)
  | _, [], _ => by unfold matchHere; nb
  | [], _ :: _, _ => by unfold matchHere; nb
  | a :: r, b :: sub, fold => by
    unfold matchHere
    have := @matchHere_nb r sub fold
    nb
macro_rules | `(tactic| nb1) => `(tactic| with_reducible exact matchHere_nb)
theorem indexAllBckLoop_nb {r sub fold} : ∀ {n}, NB (indexAllBckLoop r sub fold n)
  | 0 => by unfold indexAllBckLoop; nb
  | n + 1 => by
    unfold indexAllBckLoop
    have := @indexAllBckLoop_nb r sub fold n
    nb
macro_rules | `(tactic| nb1) => `(tactic| with_reducible exact indexAllBckLoop_nb)
theorem indexAllBckEx_nb {r sub fold} : NB (indexAllBckEx r sub fold) := by unfold indexAllBckEx; nb
macro_rules | `(tactic| nb1) => `(tactic| with_reducible exact indexAllBckEx_nb)
theorem indexAllLoop_nb {sub fold} : ∀ {r n}, NB (indexAllLoop sub fold r n)
  | [], _ => by unfold indexAllLoop; nb
  | a :: r, n => by
    unfold indexAllLoop
    have := @indexAllLoop_nb sub fold r (n + 1)
    nb
macro_rules | `(tactic| nb1) => `(tactic| with_reducible exact indexAllLoop_nb)
theorem indexAllEx_nb {r sub fold} : NB (indexAllEx r sub fold) := by unfold indexAllEx; nb
macro_rules | `(tactic| nb1) => `(tactic| with_reducible exact indexAllEx_nb)
theorem colorGo_nb : ∀ {k l}, NB (colorGo k l)
  | _, [] => by cases ‹Nat› <;> (unfold colorGo; nb)
  | k + 1, _ :: rest => by unfold colorGo; exact colorGo_nb
  | 0, c :: [] => by
    have := @colorGo_nb 0 []
    unfold colorGo; nb
  | 0, c :: d :: rest' => by
    have h1 := @colorGo_nb 0 (d :: rest')
    have h2 := fun i => @colorGo_nb (i + 2) (d :: rest')
    unfold colorGo
    dsimp only
    apply NB.ite
    · apply NB.ite
      · cases index 109 rest' with
        | none => exact h1
        | some i => exact h2 i
      · nb
    · nb
macro_rules | `(tactic| nb1) => `(tactic| with_reducible exact colorGo_nb)
theorem colorFilter_nb {l} : NB (colorFilter l) := by unfold colorFilter; nb
macro_rules | `(tactic| nb1) => `(tactic| with_reducible exact colorFilter_nb)
theorem mapM_nb {α β} {f : α → R β} (hf : ∀ a, NB (f a)) : ∀ {l : List α}, NB (l.mapM f)
  | [] => by rw [List.mapM_nil]; exact NB.ok
  | a :: l => by
    rw [List.mapM_cons]
    have := hf a
    have := @mapM_nb α β f hf l
    simp only [R.pure_eq]
    nb
theorem aggInner_nb {i} : ∀ {l}, NB (aggInner i l)
  | a :: b :: rest => by
    have := @aggInner_nb i (b :: rest)
    unfold aggInner
    nb
  | [_] => NB.ok
  | [] => NB.ok
theorem aggLoop_nb {l} : ∀ {n i s}, NB (aggLoop l n i s)
  | 0, _, _ => NB.ok
  | n + 1, i, _ => by
    have h1 := @aggInner_nb i l
    have h2 := @aggLoop_nb l n (i + 1) (i + 1)
    unfold aggLoop
    nb
theorem aggregate_nb {l} : NB (aggregate l) := by
  cases l with
  | nil => unfold aggregate; nb
  | cons a l =>
    have : ∀ n, NB ((a :: l).mapM fun c => sliceFrom c n) := fun n => mapM_nb fun _ => sliceFrom_nb
    unfold aggregate
    apply NB.bind aggLoop_nb
    intro _
    apply NB.ite
    · apply NB.bind sliceTo_nb
      intro _
      apply NB.bind (this _)
      intro _
      nb
    · nb
macro_rules | `(tactic| nb1) => `(tactic| with_reducible exact aggregate_nb)
theorem lineCount_nb {a b} : NB (lineCount a b) := by unfold lineCount; nb
macro_rules | `(tactic| nb1) => `(tactic| with_reducible exact lineCount_nb)

/-! ### runebuf.go -/

namespace RB
theorem promptLen_nb {U r} : NB (promptLen U r) := by unfold promptLen; nb
macro_rules | `(tactic| nb1) => `(tactic| with_reducible exact RB.promptLen_nb)
theorem currentWidth_nb {U r x} : NB (currentWidth U r x) := by unfold currentWidth; nb
macro_rules | `(tactic| nb1) => `(tactic| with_reducible exact RB.currentWidth_nb)
theorem runeSlice_nb {r i} : NB (runeSlice r i) := by unfold runeSlice; nb
macro_rules | `(tactic| nb1) => `(tactic| with_reducible exact RB.runeSlice_nb)
theorem getSplitByLine_nb {U r rs} : NB (getSplitByLine U r rs) := by unfold getSplitByLine; nb
macro_rules | `(tactic| nb1) => `(tactic| with_reducible exact RB.getSplitByLine_nb)
theorem isInLineEdge_nb {U b r} : NB (isInLineEdge U b r) := by unfold isInLineEdge; nb
macro_rules | `(tactic| nb1) => `(tactic| with_reducible exact RB.isInLineEdge_nb)
theorem idxLine_nb {U r w} : NB (idxLine U r w) := by unfold idxLine; nb
macro_rules | `(tactic| nb1) => `(tactic| with_reducible exact RB.idxLine_nb)
theorem lineCount_nb {U r w} : NB (RB.lineCount U r w) := by unfold RB.lineCount; nb
macro_rules | `(tactic| nb1) => `(tactic| with_reducible exact RB.lineCount_nb)
theorem cursorLineCount_nb {U r} : NB (cursorLineCount U r) := by unfold cursorLineCount; nb
macro_rules | `(tactic| nb1) => `(tactic| with_reducible exact RB.cursorLineCount_nb)
theorem sepLoop_nb {W p w} : ∀ {f i s}, NB (sepLoop W p w f i s)
  | 0, _, _ => by unfold sepLoop; nb
  | f + 1, i, s => by
    unfold sepLoop
    dsimp only
    exact NB.ite NB.ok sepLoop_nb
macro_rules | `(tactic| nb1) => `(tactic| with_reducible exact RB.sepLoop_nb)
theorem getBackspaceSequence_nb {U r} : NB (getBackspaceSequence U r) := by unfold getBackspaceSequence; dsimp only; nb
macro_rules | `(tactic| nb1) => `(tactic| with_reducible exact RB.getBackspaceSequence_nb)
theorem output_nb {U d r} : NB (output U d r) := by unfold output; dsimp only; nb
macro_rules | `(tactic| nb1) => `(tactic| with_reducible exact RB.output_nb)
theorem print_nb {U d r} : NB (print U d r) := by unfold print; nb
macro_rules | `(tactic| nb1) => `(tactic| with_reducible exact RB.print_nb)
theorem cleanOutput_nb {U r l} : NB (cleanOutput U r l) := by unfold cleanOutput; nb
macro_rules | `(tactic| nb1) => `(tactic| with_reducible exact RB.cleanOutput_nb)
theorem clean_nb {U r} : NB (clean U r) := by unfold clean; nb
macro_rules | `(tactic| nb1) => `(tactic| with_reducible exact RB.clean_nb)
theorem refreshV_nb {α U d r} {f : Ed → R (α × Ed)} (hf : ∀ e, NB (f e)) : NB (refreshV U d r f) := by
  unfold refreshV
  apply NB.ite
  · apply NB.bind (hf _); nb
  · apply NB.bind clean_nb
    intro r
    apply NB.bind (hf _); nb
theorem refresh_nb {U d r} {f : Ed → R Ed} (hf : ∀ e, NB (f e)) : NB (refresh U d r f) := by
  unfold refresh
  apply NB.ite
  · apply NB.bind (hf _); nb
  · apply NB.bind clean_nb
    intro r
    apply NB.bind (hf _); nb
theorem refreshNil_nb {U d r} : NB (refreshNil U d r) := refresh_nb fun _ => NB.ok
macro_rules | `(tactic| nb1) => `(tactic| with_reducible exact RB.refreshNil_nb)
end RB

namespace Ed
theorem scanDown_nb {b} : ∀ {i}, NB (scanDown b i)
  | 0 => by unfold scanDown; nb
  | i + 1 => by
    have := @scanDown_nb b i
    unfold scanDown; nb
macro_rules | `(tactic| nb1) => `(tactic| with_reducible exact Ed.scanDown_nb)
theorem findDown_nb {b c} : ∀ {i}, NB (findDown b c i)
  | 0 => by unfold findDown; nb
  | i + 1 => by
    have := @findDown_nb b c i
    unfold findDown; nb
macro_rules | `(tactic| nb1) => `(tactic| with_reducible exact Ed.findDown_nb)
end Ed

open Ed in
theorem Cmd.apply_nb {U d} {k : Cmd} {r : RB} : NB (k.apply U d r) := by
  cases k <;> unfold Cmd.apply <;> dsimp only
  case insert s => exact RB.refresh_nb fun e => by unfold writeRunesC; nb
  case backspace => exact RB.refresh_nb fun e => by unfold backspaceC; dsimp only; nb
  case delete => exact NB.map (RB.refreshV_nb fun e => by unfold deleteC; nb)
  case left => exact RB.refresh_nb fun e => by unfold moveBackwardC; nb
  case right => exact RB.refresh_nb fun e => by unfold moveForwardC; nb
  case home => exact RB.refresh_nb fun e => by unfold moveToLineStartC; nb
  case toEnd => exact RB.refresh_nb fun e => by unfold moveToLineEndC; nb
  case kill => exact RB.refresh_nb fun e => by unfold killC; nb
  case killFront => exact RB.refresh_nb fun e => by unfold killFrontC; nb
  case erase => exact RB.refresh_nb fun e => by unfold eraseC; nb
  case yank => unfold RB.yank; exact NB.ite NB.ok (RB.refresh_nb fun e => by unfold yankC; nb)
  case deleteWord =>
    unfold RB.deleteWord
    apply NB.ite NB.ok
    dsimp only
    split
    · apply NB.bind slice_nb
      intro _
      exact RB.refresh_nb fun e => by unfold deleteWordC; nb
    · exact RB.refresh_nb fun e => by unfold killC; nb
  case backEscapeWord => exact RB.refresh_nb fun e => by unfold backEscapeWordC; nb
  case prevWord => exact RB.refresh_nb fun e => by unfold moveToPrevWordC; nb
  case nextWord => exact RB.refresh_nb fun e => by unfold moveToNextWordC; nb
  case endWord => exact RB.refresh_nb fun e => by unfold moveToEndWordC; nb
  case transpose => exact RB.refresh_nb fun e => by unfold transposeC; dsimp only; nb
  case replace c => exact RB.refresh_nb fun e => by unfold replaceC; nb
  case moveTo c p b => exact NB.map (RB.refreshV_nb fun e => by unfold moveToC; nb)
  case set s => exact RB.refresh_nb fun e => by unfold setWithIdxC; nb
  case backup => exact NB.ok
  case restore => exact RB.refresh_nb fun e => by unfold restoreC; nb
macro_rules | `(tactic| nb1) => `(tactic| with_reducible exact Cmd.apply_nb)

namespace RB
theorem writeRunes_nb {U d r s} : NB (writeRunes U d r s) := Cmd.apply_nb (k := .insert s)
macro_rules | `(tactic| nb1) => `(tactic| with_reducible exact RB.writeRunes_nb)
theorem setWithIdx_nb {U d r i s} : NB (setWithIdx U d r i s) := refresh_nb fun e => by unfold Ed.setWithIdxC; nb
macro_rules | `(tactic| nb1) => `(tactic| with_reducible exact RB.setWithIdx_nb)
theorem set_nb {U d r s} : NB (set U d r s) := setWithIdx_nb
macro_rules | `(tactic| nb1) => `(tactic| with_reducible exact RB.set_nb)
theorem delete_nb {U d r} : NB (delete U d r) := RB.refreshV_nb fun e => by unfold Ed.deleteC; nb
macro_rules | `(tactic| nb1) => `(tactic| with_reducible exact RB.delete_nb)
theorem calWidthBack_nb {U r n} : NB (calWidthBack U r n) := by unfold calWidthBack; nb
macro_rules | `(tactic| nb1) => `(tactic| with_reducible exact RB.calWidthBack_nb)
theorem setStyle_nb {U r a b s} : NB (setStyle U r a b s) := by unfold setStyle; nb
macro_rules | `(tactic| nb1) => `(tactic| with_reducible exact RB.setStyle_nb)
end RB

/-! ### history.go, search.go, complete.go -/

namespace Hist
theorem commit_nb {c s h} : NB (commit c s h) := by unfold commit; nb
macro_rules | `(tactic| nb1) => `(tactic| with_reducible exact Hist.commit_nb)
theorem new_nb {c s h} : NB (new c s h) := by unfold new; nb
macro_rules | `(tactic| nb1) => `(tactic| with_reducible exact Hist.new_nb)
theorem findBckGo_nb {c h n rs} : ∀ {s b l}, NB (findBckGo c h n rs s b l)
  | _, _, [] => by unfold findBckGo; nb
  | s, b, e :: es => by
    have h1 := fun s => @findBckGo_nb c h n rs s false es
    unfold findBckGo
    dsimp only
    repeat' first | nb1 | with_reducible exact h1 _ | with_reducible exact NB.ok | with_reducible exact NB.panic
                  | with_reducible apply NB.ite | with_reducible apply NB.bind | intro _ | split
theorem findBck_nb {c h n rs s} : NB (findBck c h n rs s) := by
  unfold findBck
  split
  · nb
  · exact findBckGo_nb
macro_rules | `(tactic| nb1) => `(tactic| with_reducible exact Hist.findBck_nb)
theorem findFwdGo_nb {c h n rs} : ∀ {s b l}, NB (findFwdGo c h n rs s b l)
  | _, _, [] => by unfold findFwdGo; nb
  | s, b, e :: es => by
    have := fun s b => @findFwdGo_nb c h n rs s b es
    unfold findFwdGo
    dsimp only
    apply NB.ite
    · apply NB.ite
      · apply NB.bind (by nb)
        intro item
        apply NB.bind indexAllEx_nb
        intro x
        cases x with
        | none => exact this _ _
        | some i => nb
      · exact this _ _
    · apply NB.bind indexAllEx_nb
      intro x
      cases x with
      | none => exact this _ _
      | some i => nb
theorem findFwd_nb {c h n rs s} : NB (findFwd c h n rs s) := by
  unfold findFwd
  split
  · nb
  · exact findFwdGo_nb
macro_rules | `(tactic| nb1) => `(tactic| with_reducible exact Hist.findFwd_nb)
end Hist

namespace Search
theorem banner_nb {s x l} : NB (banner s x l) := by unfold banner; nb
macro_rules | `(tactic| nb1) => `(tactic| with_reducible exact Search.banner_nb)
theorem underline_nb {U s r} : NB (underline U s r) := by unfold underline; nb
macro_rules | `(tactic| nb1) => `(tactic| with_reducible exact Search.underline_nb)
theorem searchRefresh_nb {U s r x} : NB (searchRefresh U s r x) := by unfold searchRefresh; nb
macro_rules | `(tactic| nb1) => `(tactic| with_reducible exact Search.searchRefresh_nb)
theorem findHistoryBy_nb {c s h r b} : NB (findHistoryBy c s h r b) := by unfold findHistoryBy; nb
macro_rules | `(tactic| nb1) => `(tactic| with_reducible exact Search.findHistoryBy_nb)
theorem search_nb {U d c b s h r} : NB (search U d c b s h r) := by unfold search; nb
macro_rules | `(tactic| nb1) => `(tactic| with_reducible exact Search.search_nb)
theorem searchBackspace_nb {U d c s h r} : NB (searchBackspace U d c s h r) := by unfold searchBackspace; nb
macro_rules | `(tactic| nb1) => `(tactic| with_reducible exact Search.searchBackspace_nb)
theorem searchChar_nb {U d c x s h r} : NB (searchChar U d c x s h r) := by unfold searchChar; nb
macro_rules | `(tactic| nb1) => `(tactic| with_reducible exact Search.searchChar_nb)
theorem searchMode_nb {U d c b s h r} : NB (searchMode U d c b s h r) := by unfold searchMode; dsimp only; nb
macro_rules | `(tactic| nb1) => `(tactic| with_reducible exact Search.searchMode_nb)
theorem exitSearchMode_nb {U d b s h r} : NB (exitSearchMode U d b s h r) := by unfold exitSearchMode; nb
macro_rules | `(tactic| nb1) => `(tactic| with_reducible exact Search.exitSearchMode_nb)
end Search

namespace Comp
theorem menu_nb {U same cw cn hl} : ∀ {l i j k}, NB (menu U same cw cn hl l i j k)
  | [], _, _, _ => by unfold menu; nb
  | a :: l, _, _, _ => by
    have := fun i j k => @menu_nb U same cw cn hl l i j k
    unfold menu
    dsimp only
    apply NB.bind (by nb)
    intro _
    apply NB.ite
    · apply NB.bind (this _ _ _); nb
    · apply NB.bind (this _ _ _); nb
macro_rules | `(tactic| nb1) => `(tactic| with_reducible exact Comp.menu_nb)
theorem completeRefresh_nb {U c r} : NB (completeRefresh U c r) := by unfold completeRefresh; dsimp only; nb
macro_rules | `(tactic| nb1) => `(tactic| with_reducible exact Comp.completeRefresh_nb)
theorem nextCandidate_nb {c i} : NB (nextCandidate c i) := by unfold nextCandidate; nb
macro_rules | `(tactic| nb1) => `(tactic| with_reducible exact Comp.nextCandidate_nb)
theorem doSelect_nb {U d c r} : NB (doSelect U d c r) := by unfold doSelect; nb
macro_rules | `(tactic| nb1) => `(tactic| with_reducible exact Comp.doSelect_nb)
theorem enterSelect_nb {U c r} : NB (enterSelect U c r) := by unfold enterSelect; nb
macro_rules | `(tactic| nb1) => `(tactic| with_reducible exact Comp.enterSelect_nb)
theorem enterComplete_nb {U o l c r} : NB (enterComplete U o l c r) := by unfold enterComplete; nb
macro_rules | `(tactic| nb1) => `(tactic| with_reducible exact Comp.enterComplete_nb)
theorem onComplete_nb {U d a c r} : NB (onComplete U d a c r) := by unfold onComplete; dsimp only; nb
macro_rules | `(tactic| nb1) => `(tactic| with_reducible exact Comp.onComplete_nb)
theorem matrixSize_nb {c} : NB (matrixSize c) := by unfold matrixSize; dsimp only; nb
macro_rules | `(tactic| nb1) => `(tactic| with_reducible exact Comp.matrixSize_nb)
theorem chosen_nb {c} : NB (chosen c) := by unfold chosen; nb
macro_rules | `(tactic| nb1) => `(tactic| with_reducible exact Comp.chosen_nb)
theorem selectKey_nb {U d k c r} : NB (selectKey U d k c r) := by unfold selectKey; dsimp only; nb
macro_rules | `(tactic| nb1) => `(tactic| with_reducible exact Comp.selectKey_nb)
theorem handleSelect_nb {U d k c r} : NB (handleSelect U d k c r) := by unfold handleSelect; nb
macro_rules | `(tactic| nb1) => `(tactic| with_reducible exact Comp.handleSelect_nb)
end Comp

/-! ### operation.go -/

namespace Op
theorem edit_nb {c k o} : NB (Op.edit c k o) := by unfold Op.edit; nb
macro_rules | `(tactic| nb1) => `(tactic| with_reducible exact Op.edit_nb)
theorem refreshNil_nb {c o} : NB (refreshNil c o) := by unfold refreshNil; nb
macro_rules | `(tactic| nb1) => `(tactic| with_reducible exact Op.refreshNil_nb)
theorem refresh_nb {c o} : NB (refresh c o) := by unfold refresh; nb
macro_rules | `(tactic| nb1) => `(tactic| with_reducible exact Op.refresh_nb)
theorem clean_nb {c o} : NB (clean c o) := by unfold clean; nb
macro_rules | `(tactic| nb1) => `(tactic| with_reducible exact Op.clean_nb)
theorem exitSearch_nb {c b o} : NB (exitSearch c b o) := by unfold exitSearch; nb
macro_rules | `(tactic| nb1) => `(tactic| with_reducible exact Op.exitSearch_nb)
theorem enterSearch_nb {c b o} : NB (enterSearch c b o) := by unfold enterSearch; nb
macro_rules | `(tactic| nb1) => `(tactic| with_reducible exact Op.enterSearch_nb)
theorem searchChar_nb {c b o} : NB (searchChar c b o) := by unfold searchChar; nb
macro_rules | `(tactic| nb1) => `(tactic| with_reducible exact Op.searchChar_nb)
theorem searchBackspace_nb {c o} : NB (searchBackspace c o) := by unfold searchBackspace; nb
macro_rules | `(tactic| nb1) => `(tactic| with_reducible exact Op.searchBackspace_nb)
theorem onComplete_nb {c o} : NB (onComplete c o) := by unfold onComplete; nb
macro_rules | `(tactic| nb1) => `(tactic| with_reducible exact Op.onComplete_nb)
theorem completeRefresh_nb {c o} : NB (completeRefresh c o) := by unfold completeRefresh; nb
macro_rules | `(tactic| nb1) => `(tactic| with_reducible exact Op.completeRefresh_nb)
theorem keyBell_nb {c o} : NB (keyBell c o) := by unfold keyBell; dsimp only; nb
theorem keyTab_nb {c o} : NB (keyTab c o) := by unfold keyTab; nb
theorem keySearch_nb {c b o} : NB (keySearch c b o) := by unfold keySearch; nb
theorem keyBackspace_nb {c o} : NB (keyBackspace c o) := by unfold keyBackspace; nb
theorem keyEnter_nb {c o} : NB (keyEnter c o) := by unfold keyEnter; dsimp only; nb
theorem keyPrev_nb {c o} : NB (keyPrev c o) := by unfold keyPrev; nb
theorem keyNext_nb {c o} : NB (keyNext c o) := by unfold keyNext; nb
theorem keyDelete_nb {c o} : NB (keyDelete c o) := by unfold keyDelete; dsimp only; nb
theorem keyInterrupt_nb {c o} : NB (keyInterrupt c o) := by unfold keyInterrupt; dsimp only; nb
theorem keyText_nb {c r o} : NB (keyText c r o) := by unfold keyText; nb
theorem key_nb {c r o} : NB (key c r o) := by
  have h1 := @keyBell_nb c o
  have h2 := @keyTab_nb c o
  have h3 := fun b => @keySearch_nb c b o
  have h4 := @keyBackspace_nb c o
  have h5 := @keyEnter_nb c o
  have h6 := @keyPrev_nb c o
  have h7 := @keyNext_nb c o
  have h8 := @keyDelete_nb c o
  have h9 := @keyInterrupt_nb c o
  have h10 := @keyText_nb c r o
  have h11 := h3 true
  have h12 := h3 false
  unfold key
  cases simpleKey r with
  | some k => dsimp only; nb
  | none => dsimp only; nb
macro_rules | `(tactic| nb1) => `(tactic| with_reducible exact Op.key_nb)
theorem listen_nb {c r k} : NB (listen c r k) := by unfold listen; nb
macro_rules | `(tactic| nb1) => `(tactic| with_reducible exact Op.listen_nb)
theorem settle_nb {c k} : NB (settle c k) := by unfold settle; nb
macro_rules | `(tactic| nb1) => `(tactic| with_reducible exact Op.settle_nb)
theorem finish_nb {c k} : NB (finish c k) := by unfold finish; nb
macro_rules | `(tactic| nb1) => `(tactic| with_reducible exact Op.finish_nb)
theorem dispatch_nb {c r o} : NB (dispatch c r o) := by unfold dispatch; nb
macro_rules | `(tactic| nb1) => `(tactic| with_reducible exact Op.dispatch_nb)
end Op
end RL
