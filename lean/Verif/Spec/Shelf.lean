import Verif.Spec.Study
import Verif.Model.Instance
/-! Specification of a program that uses the package-level functions `Line`, `AddHistory`, `SetHistoryPath` and `SetAutoComplete`: a shelf of
history files, one of which is in use (C83). -/

namespace RL.Spec

/-- The entries in each file, the file in use (no file if the path is empty), the completer, and the notebook of C82 with its drafts. -/
structure Shelf where
  files : List Rune → List (List Rune)
  path : List Rune
  auto : Answers
  book : Book
  drafts : List (List Rune)

namespace Book

/-- What is recorded when the program adds `t`: nothing if `t` is empty or repeats the newest entry; otherwise `t` if the book is open at the
last page, and the draft of the open page if it is open at another one. -/
def adds (t : List Rune) (ds : List (List Rune)) (b : Book) : List (List Rune) :=
  if t = [] ∨ b.stored.getLast? = some t then []
  else [if b.pos + 1 < b.pages.length then ds.getD b.pos [] else t]

/-- The book with the entries `es`, open at the last page without any changes. -/
def filled (es : List (List Rune)) (z : Line) : Book := { stored := es, rest := [], pages := es ++ [[]], pos := es.length, line := z }

end Book

namespace Shelf

/-- Lines are appended to the file in use, if there is one. -/
def append (a : List (List Rune)) (s : Shelf) : Shelf :=
  { s with files := fun p => if p = s.path ∧ p ≠ [] then s.files p ++ a else s.files p }

/-- The program adds `t`. -/
def add (limit : Int) (t : List Rune) (s : Shelf) : Shelf :=
  let a := s.book.adds t s.drafts
  let es := if a = [] then s.book.stored else keepNewest limit (s.book.stored ++ a)
  { s.append a with
    book := Book.filled es s.book.line
    drafts := (if s.book.pages = [] then [[]] else if a = [] then s.drafts.dropLast else keepNewest limit s.drafts) ++ [[]] }

/-- The file at `p` is taken into use: its newest entries make a new notebook; older ones are dropped from the file.  Without a file the notebook is
empty. -/
def use (limit : Int) (p : List Rune) (s : Shelf) : Shelf :=
  if p = [] then { s with path := [], book := { Book.empty with line := s.book.line }, drafts := [] }
  else
    let es := keepNewest limit (s.files p)
    { s with
      files := fun q => if q = p then es else s.files q
      path := p
      book := Book.filled es s.book.line
      drafts := List.replicate (es.length + 1) [] }

end Shelf

/-- What a program depends on: whether lines are recorded by themselves, window, widths, limit, case; which completers and prompts it may use. -/
structure ShelfCfg where
  save : Bool
  width : Nat
  cells : List Rune → Nat
  limit : Int
  fold : Bool
  kind : Answers → Prop
  prompt : List Rune → Prop

def ShelfCfg.study (p : ShelfCfg) (f : Answers) : StudyCfg := ⟨⟨f, p.width, p.cells, p.limit⟩, p.fold⟩

/-- A step of a program, the keys typed meanwhile, and the result.  What goes to a file can be stored there (C23). -/
inductive ShelfStep (p : ShelfCfg) : Inst.Act → List Rune → List Event → Shelf → Shelf → Prop
  | line {q ks r s s1 e a b ds} : p.prompt q → StudyKeys (p.study s.auto) ks ⟨s.book, s.drafts, .desk .closed⟩ s1 →
      StudyEnd p.save (p.study s.auto) r s1 e a b ds → (s.path ≠ [] → ∀ t ∈ a, Storable t) →
      ShelfStep p (.line q) (ks ++ [r]) [e] s { s.append a with book := b, drafts := ds }
  | add {t s} : s.book.pages ≠ [] ∨ t ≠ [] → (s.path ≠ [] → ∀ x ∈ s.book.adds t s.drafts, Storable x) →
      ShelfStep p (.add t) [] [] s (s.add p.limit t)
  | path {q s} : ShelfStep p (.path q) [] [] s (s.use p.limit q)
  | auto {f s} : p.kind f → ShelfStep p (.auto f) [] [] s { s.use p.limit s.path with auto := f }

/-- A program. -/
inductive ShelfRun (p : ShelfCfg) : List Inst.Act → List Rune → List Event → Shelf → Shelf → Prop
  | done {s} : ShelfRun p [] [] [] s s
  | step {a as ks ks' es es' s s' s''} : ShelfStep p a ks es s s' → ShelfRun p as ks' es' s' s'' → ShelfRun p (a :: as) (ks ++ ks') (es ++ es') s s''

end RL.Spec
