import Verif.Model.HistFile
import Verif.Proofs.History
/-! Lemmas about the history file. -/

namespace RL
open Spec

namespace Hist

theorem termLines_line {l : List Nat} (h : 10 ∉ l) (acc rest : List Nat) :
    termLines acc (l ++ 10 :: rest) = (acc ++ l) :: termLines [] rest := by
  induction l generalizing acc with
  | nil => simp [termLines]
  | cons b l ih =>
    simp only [List.mem_cons, not_or] at h
    simp [termLines, Ne.symm h.1, ih h.2]

theorem termLines_open {l : List Nat} (h : 10 ∉ l) (acc : List Nat) : termLines acc l = [] := by
  induction l generalizing acc with
  | nil => rfl
  | cons b l ih =>
    simp only [List.mem_cons, not_or] at h
    simp [termLines, Ne.symm h.1, ih h.2]

theorem not_mem_encode {s : List Rune} (h : (10 : Rune) ∉ s) : 10 ∉ encode s := fun h0 => h ((mem_encode (b := 10) (by omega)).1 h0)

theorem termLines_fileOf {es : List (List Rune)} (h : ∀ e ∈ es, (10 : Rune) ∉ e) (tail : List Nat) :
    termLines [] (fileOf es ++ tail) = es.map encode ++ termLines [] tail := by
  induction es with
  | nil => rfl
  | cons e es ih =>
    have h1 := not_mem_encode (h e (by simp))
    have h2 := ih fun e he => h e (by simp [he])
    simp only [fileOf, List.map_cons, List.flatten_cons, List.append_assoc, List.cons_append, List.nil_append] at h2 ⊢
    rw [termLines_line h1, h2]
    rfl

theorem trimLeft_head {s : List Rune} (h : ∀ a, s.head? = some a → isSpace a = false) : trimSpaceLeft s = s := by
  cases s with
  | nil => rfl
  | cons a s => simp [trimSpaceLeft, h a rfl]

theorem trimLeft_spec (s : List Rune) : ∃ a, s = a ++ trimSpaceLeft s ∧ (∀ x ∈ a, isSpace x = true) ∧
    ∀ x, (trimSpaceLeft s).head? = some x → isSpace x = false := by
  induction s with
  | nil => exact ⟨[], rfl, by simp, by simp [trimSpaceLeft]⟩
  | cons c s ih =>
    by_cases h : isSpace c = false
    · exact ⟨[], by simp [trimSpaceLeft, h], by simp, by simp [trimSpaceLeft, h]⟩
    · obtain ⟨a, h1, h2, h3⟩ := ih
      refine ⟨c :: a, ?_, ?_, ?_⟩
      · rw [trimSpaceLeft, if_neg h, List.cons_append, ← h1]
      · simp only [List.mem_cons, forall_eq_or_imp]
        exact ⟨by simpa using h, h2⟩
      · simpa [trimSpaceLeft, h] using h3

/-- Both ends trimmed. -/
def trimBoth (s : List Rune) : List Rune := (trimSpaceLeft (trimSpaceLeft s).reverse).reverse

theorem lineText_encode {s : List Rune} (h : ∀ r ∈ s, Scalar r) : lineText (encode s) = trimBoth (s ++ [10]) := by
  unfold lineText trimBoth
  rw [show encode s ++ [10] = encode (s ++ [10]) by rw [encode_append]; rfl, decode_encode, map_scalarize_id]
  intro r hr
  simp only [List.mem_append, List.mem_singleton] at hr
  rcases hr with hr | hr
  · exact h r hr
  · subst hr; unfold Scalar; omega

theorem lineText_storable {s : List Rune} (h : Storable s) : lineText (encode s) = s := by
  rw [lineText_encode h.scalar, trimBoth, trimLeft_head (s := s ++ [10])]
  · rw [List.reverse_append]
    have : trimSpaceLeft ([(10 : Rune)].reverse ++ s.reverse) = trimSpaceLeft s.reverse := by
      simp [trimSpaceLeft, show isSpace 10 = true from rfl]
    rw [this, trimLeft_head (s := s.reverse)]
    · simp
    · intro a ha
      exact h.last a (by simpa using ha)
  · intro a ha
    have h1 := h.nonempty
    cases s with
    | nil => contradiction
    | cons c s => exact h.first a (by simpa using ha)

/-- The texts a session reads from the bytes of a history file. -/
def fileTexts (disk : List Nat) : List (List Rune) := ((termLines [] disk).map lineText).filter fun t => t ≠ []

theorem fileTexts_storable {es : List (List Rune)} (h : ∀ e ∈ es, Storable e) (tail : List Nat) :
    fileTexts (fileOf es ++ tail) = es ++ fileTexts tail := by
  unfold fileTexts
  rw [termLines_fileOf fun e he => (h e he).oneLine, List.map_append, List.filter_append, List.map_map]
  congr 1
  have h1 : es.map (lineText ∘ encode) = es := by
    clear tail
    induction es with
    | nil => rfl
    | cons e es ih =>
      simp only [List.map_cons, Function.comp, lineText_storable (h e (by simp))]
      congr 1
      exact ih fun e he => h e (by simp [he])
  rw [h1, List.filter_eq_self]
  intro e he
  simpa using (h e he).nonempty

theorem loadLines_texts (cfg : HCfg) (ls : List (List Nat)) (h : Hist) (w : h.WF) (hle : h.order.length ≤ cfg.limit.toNat) :
    (loadLines cfg ls h).order.map (fun i => ((loadLines cfg ls h).elems i).source) =
      keepNewest cfg.limit (h.order.map (fun i => (h.elems i).source) ++ (ls.map lineText).filter fun t => t ≠ []) ∧
    (loadLines cfg ls h).disk = h.disk ∧ (loadLines cfg ls h).fd = h.fd ∧ (loadLines cfg ls h).enable = h.enable ∧
    (loadLines cfg ls h).ver = h.ver := by
  induction ls generalizing h with
  | nil =>
    refine ⟨?_, rfl, rfl, rfl, rfl⟩
    simp only [loadLines, List.map_nil, List.filter_nil, List.append_nil]
    rw [keepNewest_self (by simpa using hle)]
  | cons l ls ih =>
    unfold loadLines
    by_cases h0 : (lineText l).length = 0
    · have h0' : lineText l = [] := by simpa using h0
      rw [if_pos h0]
      simpa [h0'] using ih h w hle
    · have h0' : lineText l ≠ [] := by simpa using h0
      rw [if_neg h0]
      have w1 := compact_WF (push_WF w (lineText l)) cfg
      have hle1 : ((h.push (lineText l)).compact cfg).order.length ≤ cfg.limit.toNat := by
        simp only [compact, compactList_eq]; exact keepNewest_length _ _
      obtain ⟨k1, k2, k3, k4, k5⟩ := ih _ w1 hle1
      refine ⟨?_, k2, k3, k4, k5⟩
      rw [k1]
      have : ((h.push (lineText l)).compact cfg).order.map (fun i => (((h.push (lineText l)).compact cfg).elems i).source) =
          keepNewest cfg.limit (h.order.map (fun i => (h.elems i).source) ++ [lineText l]) := by
        simp only [compact, compactList_eq, keepNewest_map, push, List.map_append, List.map_cons, List.map_nil, setItem, if_true]
        congr 2
        apply List.map_congr_left
        intro i hi
        have := w.known i hi
        simp [show i ≠ h.next by omega]
      rw [this, keepNewest_append]
      simp [h0']

theorem fileOf_map {h : Hist} : (h.order.map fun i => fileLine (h.elems i).source).flatten =
    fileOf (h.order.map fun i => (h.elems i).source) := by
  simp [fileOf, fileLine, List.map_map, Function.comp_def]

/-- Opening the history file. -/
theorem start_spec (cfg : HCfg) (disk : List Nat) (hf : cfg.hasFile = true) (ho : cfg.openOK = true) :
    (start cfg disk).entries = keepNewest cfg.limit (fileTexts disk) ∧
    (start cfg disk).disk = (if ((termLines [] disk).length : Int) > cfg.limit then fileOf (keepNewest cfg.limit (fileTexts disk))
      else disk) ∧
    (start cfg disk).WF ∧ (start cfg disk).fd = .opened ∧ (start cfg disk).enable = true ∧
    (start cfg disk).current = (start cfg disk).back ∧ (start cfg disk).order ≠ [] := by
  have w0 : ({ fresh disk with fd := Fd.opened } : Hist).WF := { fresh_WF disk with }
  obtain ⟨k1, k2, k3, k4, k5⟩ := loadLines_texts cfg (termLines [] disk) { fresh disk with fd := .opened } w0 (by simp [fresh])
  have w1 := loadLines_WF w0 cfg (termLines [] disk)
  simp only [show ({ fresh disk with fd := Fd.opened } : Hist).order = [] from rfl, List.map_nil, List.nil_append] at k1
  have hs : start cfg disk = (({ (if ((termLines [] disk).length : Int) > cfg.limit then
      (loadLines cfg (termLines [] disk) { fresh disk with fd := .opened }).rewrite cfg
      else loadLines cfg (termLines [] disk) { fresh disk with fd := .opened }) with
      ver := (if ((termLines [] disk).length : Int) > cfg.limit then
      (loadLines cfg (termLines [] disk) { fresh disk with fd := .opened }).rewrite cfg
      else loadLines cfg (termLines [] disk) { fresh disk with fd := .opened }).ver + 1 } : Hist)).push [] := by
    unfold start init
    rw [if_neg (by simp [fresh]), if_pos hf]
    unfold updatePath
    rw [if_neg (by simp [ho])]
    rfl
  rw [hs]
  by_cases hr : ((termLines [] disk).length : Int) > cfg.limit
  · simp only [if_pos hr]
    have w2 := ver_WF (rewrite_WF w1 cfg)
    have hrw : (loadLines cfg (termLines [] disk) { fresh disk with fd := .opened }).rewrite cfg =
        { loadLines cfg (termLines [] disk) { fresh disk with fd := .opened } with
          disk := fileOf (keepNewest cfg.limit (fileTexts disk)), fd := .opened } := by
      unfold rewrite
      rw [if_neg (by simp [hf, ho]), fileOf_map, k1]
      rfl
    rw [push_entries w2]
    refine ⟨?_, ?_, push_WF w2 [], ?_, ?_, by simp [push, back], by simp [push]⟩
    · simp only [hrw]; exact k1
    · simp only [hrw]; rfl
    · simp only [hrw]; rfl
    · simp only [hrw]; exact k4
  · simp only [if_neg hr]
    have w2 := ver_WF w1
    rw [push_entries w2]
    exact ⟨k1, k2, push_WF w2 [], k3, k4, by simp [push, back], by simp [push]⟩

end Hist

theorem execAll_append (a b : List FsStep) (f : FS) : execAll (a ++ b) f = execAll b (execAll a f) := by
  induction a generalizing f with
  | nil => rfl
  | cons s a ih => simp [execAll, ih]

theorem execAll_chunks (chunks : List (List Nat)) (old t : List Nat) :
    execAll (chunks.map .append) ⟨old, some t⟩ = ⟨old, some (t ++ chunks.flatten)⟩ := by
  induction chunks generalizing t with
  | nil => simp [execAll]
  | cons c cs ih => simp [execAll, FsStep.exec, ih]

end RL
