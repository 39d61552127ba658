import Init.Data.Rat.Lemmas
set_option linter.unusedSimpArgs false
/-!
# The main program of the evaluation tool (property C66)

ShapevlMain.cpp:127-300. Arguments and paths are strings; what the comparison of a feed yields is a parameter here (it is the subject of C44, C45
and C65), and so is the growth of a `std::vector`.
-/
namespace Verif.Eval.Main

/-- The values set by the options, ShapevlMain.cpp:134-148. -/
structure Opts where
  truth : String := ""
  mots : String := "all"
  report : String := ""
  feeds : List String := []
  summarize : Bool := false
  json : Bool := false
  avg : Bool := false
  unique : Bool := false
  level : Int := 1
  segLen : Rat
  deriving DecidableEq

/-- What the program gets from outside. `stat`: the statistics of a feed, `none` if it cannot be parsed. `rows`: the lines of its report. -/
structure World where
  realpath : String → Option String
  atoi : String → Int
  mPerDeg : Rat
  /-- last component of a path -/
  base : String → String
  openOk : String → Bool
  truthOk : String → Bool
  stat : Opts → String → Option (String → Rat)
  rows : Opts → String → List String
  /-- new capacity of a full vector -/
  grow : Nat → Nat

/-- `std::set<std::string>::insert`. -/
def insertSet (p : String) : List String → List String
  | [] => [p]
  | x :: xs => if p < x then p :: x :: xs else if x < p then x :: insertSet p xs else x :: xs

/-- ShapevlMain.cpp:150-200. The exit code, or the options. -/
def parse (w : World) : List String → Opts → Except Nat Opts
  | [], o => .ok o
  | cur :: rest, o =>
    if cur = "-h" ∨ cur = "--help" then .error 0
    else if cur = "-g" then
      match rest with
      | [] => .error 1
      | v :: rest => parse w rest { o with truth := v }
    else if cur = "-s" then parse w rest { o with summarize := true }
    else if cur = "--json" then parse w rest { o with json := true }
    else if cur = "--unique" then parse w rest { o with unique := true }
    else if cur = "--avg" then parse w rest { o with avg := true }
    else if cur = "--segment-length" then
      match rest with
      | [] => .error 1
      | v :: rest => parse w rest { o with segLen := (w.atoi v : Rat) }
    else if cur = "-l" then
      match rest with
      | [] => .error 1
      | v :: rest => parse w rest { o with level := w.atoi v }
    else if cur = "-f" then
      match rest with
      | [] => .error 1
      | v :: rest => parse w rest { o with report := v }
    else if cur = "-m" then
      match rest with
      | [] => .error 1
      | v :: rest => parse w rest { o with mots := v }
    else
      match w.realpath cur with
      | none => .error 1
      | some p => parse w rest { o with feeds := insertSet p o.feeds }

/-- The defaults; ShapevlMain.cpp:148. -/
def start (w : World) : Opts := { segLen := 25 / w.mPerDeg }

/-- A vector, as far as pointers to its elements are concerned: the number of the buffer, capacity and size. -/
structure Vec where
  buf : Nat := 0
  cap : Nat := 0
  len : Nat := 0

/-- `emplace_back`. -/
def Vec.push (w : World) (v : Vec) : Vec :=
  if v.len = v.cap then { buf := v.buf + 1, cap := w.grow v.len, len := v.len + 1 } else { v with len := v.len + 1 }

/-- ShapevlMain.cpp:208: the name of a report. -/
def reportName (w : World) (o : Opts) (p : String) : String := o.report ++ "/" ++ w.base p ++ ".fullreport.tsv"

/-- ShapevlMain.cpp:202-215 with `-f`: the streams, and for each feed the buffer its pointer points into. `none`: a file cannot be opened (an
exception nobody catches). -/
def openAll (w : World) (o : Opts) : List String → Vec → Option (Vec × List Nat)
  | [], v => some (v, [])
  | p :: ps, v =>
    let v := v.push w
    if w.openOk (reportName w o p) then (openAll w o ps v).map fun r => (r.1, v.buf :: r.2) else none

/-- What is printed (ShapevlMain.cpp:247-298). -/
inductive Print where
  | text (short : Bool) (l : List (String × (String → Rat)))
  | jsonAll (l : List (String × (String → Rat)))
  | jsonOne (s : String → Rat)

inductive Out where
  | exit (code : Nat)
  | abort
  | undefined
  | done (print : Print) (reports : List (String × List String))

/-- ShapevlMain.cpp:271-276. -/
def mean (l : List (String → Rat)) (k : String) : Rat := l.foldl (fun s f => s + f k) 0 / (l.length : Rat)

/-- ShapevlMain.cpp:247-298. `none`: the first collector of none is used (266). -/
def print (o : Opts) (l : List (String × (String → Rat))) : Option Print :=
  if o.json then
    match l with
    | [p] => some (.jsonOne p.2)
    | _ => if o.avg then (if l.isEmpty then none else some (.jsonOne (mean (l.map (·.2))))) else some (.jsonAll l)
  else some (.text o.summarize l)

/-- The comparisons have been made. -/
def finish (o : Opts) (l : List (String × (String → Rat))) (reports : List (String × List String)) : Out :=
  match print o l with
  | none => .undefined
  | some p => .done p reports

/-- The results of the feeds; `none` if one cannot be parsed (ShapevlMain.cpp:57-61). -/
def results (w : World) (o : Opts) : List String → Option (List (String × (String → Rat)))
  | [] => some []
  | p :: ps => match w.stat o p, results w o ps with
    | some s, some l => some ((p, s) :: l)
    | _, _ => none

/-- ShapevlMain.cpp:218-246: from the check of the ground truth on. -/
def compareAll (w : World) (o : Opts) (v : Vec) (ptrs : List Nat) : Out :=
  if o.truth = "" then .exit 1
  else if w.truthOk o.truth then
    match results w o o.feeds with
    | none => .exit 1
    | some l =>
      if (o.feeds.zip ptrs).any (fun x => x.2 ≠ v.buf && !(w.rows o x.1).isEmpty) then .undefined
      else finish o l (if o.report = "" then [] else o.feeds.map fun p => (reportName w o p, w.rows o p))
  else .exit 1

/-- The program. -/
def run (w : World) (args : List String) : Out :=
  match parse w args (start w) with
  | .error n => .exit n
  | .ok o =>
    if o.report = "" then compareAll w o {} []
    else
      match openAll w o o.feeds {} with
      | none => .abort
      | some (v, ptrs) => compareAll w o v ptrs

/-! ### specification -/

/-- What a user can say on the command line. -/
inductive Item where
  | truth (v : String) | mots (v : String) | report (v : String) | level (v : String) | segLen (v : String)
  | summarize | json | avg | unique
  | feed (p : String)
  deriving DecidableEq

def Item.render : Item → List String
  | truth v => ["-g", v]
  | mots v => ["-m", v]
  | report v => ["-f", v]
  | level v => ["-l", v]
  | segLen v => ["--segment-length", v]
  | summarize => ["-s"]
  | json => ["--json"]
  | avg => ["--avg"]
  | unique => ["--unique"]
  | feed p => [p]

def names : List String := ["-h", "--help", "-g", "-s", "--json", "--unique", "--avg", "--segment-length", "-l", "-f", "-m"]

/-- Feeds are not called like options. -/
def Plain (items : List Item) : Prop := ∀ i ∈ items, ∀ p, i = .feed p → p ∉ names

def Item.truth? : Item → Option String | truth v => some v | _ => none
def Item.mots? : Item → Option String | mots v => some v | _ => none
def Item.report? : Item → Option String | report v => some v | _ => none
def Item.level? : Item → Option String | level v => some v | _ => none
def Item.segLen? : Item → Option String | segLen v => some v | _ => none

/-- The last value given for an option. -/
def last (f : Item → Option String) (items : List Item) : Option String := (items.filterMap f).getLast?

/-- The options mean what the items say; the feeds are the resolved paths in ascending order, each once. -/
structure Says (w : World) (items : List Item) (o : Opts) : Prop where
  truth : o.truth = (last Item.truth? items).getD ""
  mots : o.mots = (last Item.mots? items).getD "all"
  report : o.report = (last Item.report? items).getD ""
  level : o.level = ((last Item.level? items).map w.atoi).getD 1
  segLen : o.segLen = ((last Item.segLen? items).map fun v => (w.atoi v : Rat)).getD (25 / w.mPerDeg)
  summarize : o.summarize = true ↔ Item.summarize ∈ items
  json : o.json = true ↔ Item.json ∈ items
  avg : o.avg = true ↔ Item.avg ∈ items
  unique : o.unique = true ↔ Item.unique ∈ items
  feeds : ∀ q, q ∈ o.feeds ↔ ∃ p, Item.feed p ∈ items ∧ w.realpath p = some q
  sorted : o.feeds.Pairwise (· < ·)

/-! ### proofs -/

theorem mem_insertSet (p q : String) (l : List String) : q ∈ insertSet p l ↔ q = p ∨ q ∈ l := by
  induction l with
  | nil => simp [insertSet]
  | cons x l ih =>
    simp only [insertSet]
    split
    · simp
    · split
      · simp only [List.mem_cons, ih]
        constructor
        · rintro (h | h | h) <;> simp [h]
        · rintro (h | h | h) <;> simp [h]
      · rename_i h1 h2
        have : p = x := String.le_antisymm (String.not_lt.1 h2) (String.not_lt.1 h1)
        subst this
        simp

theorem insertSet_sorted (p : String) (l : List String) (h : l.Pairwise (· < ·)) : (insertSet p l).Pairwise (· < ·) := by
  induction l with
  | nil => simp [insertSet]
  | cons x l ih =>
    obtain ⟨h1, h2⟩ := List.pairwise_cons.1 h
    simp only [insertSet]
    split
    · rename_i hp
      refine List.pairwise_cons.2 ⟨?_, h⟩
      intro y hy
      rcases List.mem_cons.1 hy with rfl | hy
      · exact hp
      · exact String.lt_trans hp (h1 y hy)
    · split
      · rename_i hx
        refine List.pairwise_cons.2 ⟨?_, ih h2⟩
        intro y hy
        rcases (mem_insertSet p y l).1 hy with rfl | hy
        · exact hx
        · exact h1 y hy
      · exact h

/-- The options after some more items. -/
structure More (w : World) (o : Opts) (items : List Item) (o' : Opts) : Prop where
  truth : o'.truth = (last Item.truth? items).getD o.truth
  mots : o'.mots = (last Item.mots? items).getD o.mots
  report : o'.report = (last Item.report? items).getD o.report
  level : o'.level = ((last Item.level? items).map w.atoi).getD o.level
  segLen : o'.segLen = ((last Item.segLen? items).map fun v => (w.atoi v : Rat)).getD o.segLen
  summarize : o'.summarize = true ↔ o.summarize = true ∨ Item.summarize ∈ items
  json : o'.json = true ↔ o.json = true ∨ Item.json ∈ items
  avg : o'.avg = true ↔ o.avg = true ∨ Item.avg ∈ items
  unique : o'.unique = true ↔ o.unique = true ∨ Item.unique ∈ items
  feeds : ∀ q, q ∈ o'.feeds ↔ q ∈ o.feeds ∨ ∃ p, Item.feed p ∈ items ∧ w.realpath p = some q
  sorted : o.feeds.Pairwise (· < ·) → o'.feeds.Pairwise (· < ·)

/-- What one item does. -/
def apply (w : World) (o : Opts) : Item → Except Nat Opts
  | .truth v => .ok { o with truth := v }
  | .mots v => .ok { o with mots := v }
  | .report v => .ok { o with report := v }
  | .level v => .ok { o with level := w.atoi v }
  | .segLen v => .ok { o with segLen := (w.atoi v : Rat) }
  | .summarize => .ok { o with summarize := true }
  | .json => .ok { o with json := true }
  | .avg => .ok { o with avg := true }
  | .unique => .ok { o with unique := true }
  | .feed p => match w.realpath p with
    | none => .error 1
    | some q => .ok { o with feeds := insertSet q o.feeds }

theorem parse_item (w : World) (o : Opts) (i : Item) (h : ∀ p, i = .feed p → p ∉ names) (rest : List String) :
    parse w (i.render ++ rest) o = match apply w o i with
      | .error n => .error n
      | .ok o' => parse w rest o' := by
  cases i with
  | feed p =>
    have hp := h p rfl
    simp only [names, List.mem_cons, List.not_mem_nil, or_false, not_or] at hp
    obtain ⟨n1, n2, n3, n4, n5, n6, n7, n8, n9, n10, n11⟩ := hp
    rw [Item.render, List.cons_append, List.nil_append, parse.eq_def]
    simp only [n1, n2, n3, n4, n5, n6, n7, n8, n9, n10, n11, or_self, if_false, apply]
    cases w.realpath p <;> rfl
  | _ => simp only [Item.render, List.cons_append, List.nil_append]; rw [parse.eq_def]; simp [apply]

theorem last_cons (f : Item → Option String) (i : Item) (items : List Item) :
    last f (i :: items) = (last f items).or (f i) := by
  unfold last
  cases h : f i with
  | none => simp [h]
  | some v =>
    simp only [List.filterMap_cons, h]
    cases hl : items.filterMap f with
    | nil => rfl
    | cons x xs => rw [List.getLast?_cons_cons, List.getLast?_eq_some_getLast (by simp)]; rfl

theorem parse_items (w : World) : ∀ (items : List Item) (o : Opts), Plain items →
    (∃ o', parse w (items.flatMap Item.render) o = .ok o' ∧ More w o items o' ∧ ∀ p, Item.feed p ∈ items → w.realpath p ≠ none) ∨
    (parse w (items.flatMap Item.render) o = .error 1 ∧ ∃ p, Item.feed p ∈ items ∧ w.realpath p = none) := by
  intro items
  induction items with
  | nil =>
    intro o _
    exact .inl ⟨o, rfl, ⟨rfl, rfl, rfl, rfl, rfl, by simp, by simp, by simp, by simp, by simp, id⟩, by simp⟩
  | cons i items ih =>
    intro o hp
    rw [List.flatMap_cons, parse_item w o i (hp i (List.mem_cons_self ..))]
    have hp' : Plain items := fun x hx => hp x (List.mem_cons_of_mem _ hx)
    cases ha : apply w o i with
    | error n =>
      right
      cases i <;> simp only [apply] at ha <;> try cases ha
      rename_i p
      split at ha
      · rename_i hn
        cases ha
        exact ⟨rfl, p, List.mem_cons_self .., hn⟩
      · cases ha
    | ok o1 =>
      rcases ih o1 hp' with ⟨o', h1, h2, h3⟩ | ⟨h1, p, h2, h3⟩
      · left
        refine ⟨o', h1, ?_, ?_⟩
        · cases i with
          | feed p =>
            simp only [apply] at ha
            split at ha
            · cases ha
            · rename_i q hq
              cases ha
              obtain ⟨a1, a2, a3, a4, a5, a6, a7, a8, a9, a10, a11⟩ := h2
              refine ⟨by rw [last_cons]; simpa [Item.truth?] using a1, by rw [last_cons]; simpa [Item.mots?] using a2,
                by rw [last_cons]; simpa [Item.report?] using a3, by rw [last_cons]; simpa [Item.level?] using a4,
                by rw [last_cons]; simpa [Item.segLen?] using a5, by simpa using a6, by simpa using a7, by simpa using a8, by simpa using a9,
                ?_, fun h => a11 (insertSet_sorted _ _ h)⟩
              intro x
              rw [a10, mem_insertSet]
              simp only [List.mem_cons, Item.feed.injEq]
              constructor
              · rintro ((h | h) | ⟨y, h, h'⟩)
                · exact .inr ⟨p, .inl rfl, by rw [hq, h]⟩
                · exact .inl h
                · exact .inr ⟨y, .inr h, h'⟩
              · rintro (h | ⟨y, h | h, h'⟩)
                · exact .inl (.inr h)
                · subst h; rw [hq] at h'; cases h'; exact .inl (.inl rfl)
                · exact .inr ⟨y, h, h'⟩
          | _ =>
            simp only [apply] at ha
            cases ha
            obtain ⟨a1, a2, a3, a4, a5, a6, a7, a8, a9, a10, a11⟩ := h2
            refine ⟨?_, ?_, ?_, ?_, ?_, ?_, ?_, ?_, ?_, ?_, a11⟩
            · rw [last_cons, a1]; cases last Item.truth? items <;> simp [Item.truth?]
            · rw [last_cons, a2]; cases last Item.mots? items <;> simp [Item.mots?]
            · rw [last_cons, a3]; cases last Item.report? items <;> simp [Item.report?]
            · rw [last_cons, a4]; cases last Item.level? items <;> simp [Item.level?]
            · rw [last_cons, a5]; cases last Item.segLen? items <;> simp [Item.segLen?]
            · simpa using a6
            · simpa using a7
            · simpa using a8
            · simpa using a9
            · simpa using a10
        · intro p hm
          rcases List.mem_cons.1 hm with rfl | hm
          · simp only [apply] at ha
            split at ha
            · cases ha
            · rename_i q hq; rw [hq]; simp
          · exact h3 p hm
      · exact .inr ⟨h1, p, List.mem_cons_of_mem _ h2, h3⟩

/-- **C66 (options).** For every command line made of options with their values and feeds, in any order: if all feeds exist, the program goes on with
the options as said (of repeated options the last one counts; every feed once, in ascending order of the resolved paths), otherwise it ends
with code 1. -/
theorem C66_options (w : World) (items : List Item) (hp : Plain items) :
    ((∀ p, Item.feed p ∈ items → w.realpath p ≠ none) → ∃ o, parse w (items.flatMap Item.render) (start w) = .ok o ∧ Says w items o) ∧
    ((∃ p, Item.feed p ∈ items ∧ w.realpath p = none) → run w (items.flatMap Item.render) = .exit 1) := by
  rcases parse_items w items (start w) hp with ⟨o, h1, h2, h3⟩ | ⟨h1, p, h2, h3⟩
  · refine ⟨fun _ => ⟨o, h1, ?_⟩, ?_⟩
    · obtain ⟨a1, a2, a3, a4, a5, a6, a7, a8, a9, a10, a11⟩ := h2
      exact ⟨a1, a2, a3, a4, a5, by simpa [start] using a6, by simpa [start] using a7, by simpa [start] using a8, by simpa [start] using a9,
        by simpa [start] using a10, a11 (by simp [start])⟩
    · rintro ⟨p, hm, hn⟩; exact absurd hn (h3 p hm)
  · exact ⟨fun h => absurd h3 (h p h2), fun _ => by simp only [run, h1]⟩

/-- Asking for help ends the program with code 0, whatever follows. -/
theorem C66_help (w : World) (items : List Item) (hp : Plain items) (hf : ∀ p, Item.feed p ∈ items → w.realpath p ≠ none) (hl : String)
    (h : hl = "-h" ∨ hl = "--help") (rest : List String) : run w (items.flatMap Item.render ++ hl :: rest) = .exit 0 := by
  have : ∀ (items : List Item) (o : Opts), Plain items → (∀ p, Item.feed p ∈ items → w.realpath p ≠ none) →
      parse w (items.flatMap Item.render ++ hl :: rest) o = .error 0 := by
    intro items
    induction items with
    | nil => intro o _ _; rw [List.flatMap_nil, List.nil_append, parse.eq_def]; simp only [if_pos h]
    | cons i items ih =>
      intro o hp hf
      rw [List.flatMap_cons, List.append_assoc, parse_item w o i (hp i (List.mem_cons_self ..))]
      have := fun o => ih o (fun x hx => hp x (List.mem_cons_of_mem _ hx)) fun p hm => hf p (List.mem_cons_of_mem _ hm)
      cases i with
      | feed p =>
        have hq := hf p (List.mem_cons_self ..)
        cases hr : w.realpath p with
        | none => exact absurd hr hq
        | some q => simp only [apply, hr]; exact this _
      | _ => exact this _
  simp only [run, this items (start w) hp hf]

/-- The statistics of the feeds, in order. -/
def Gives (w : World) (o : Opts) (l : List (String × (String → Rat))) : Prop :=
  l.map (·.1) = o.feeds ∧ ∀ x ∈ l, w.stat o x.1 = some x.2

theorem results_some (w : World) (o : Opts) : ∀ (ps : List String), (∀ p ∈ ps, w.stat o p ≠ none) →
    ∃ l, results w o ps = some l ∧ l.map (·.1) = ps ∧ ∀ x ∈ l, w.stat o x.1 = some x.2 := by
  intro ps
  induction ps with
  | nil => intro _; exact ⟨[], rfl, rfl, by simp⟩
  | cons p ps ih =>
    intro h
    obtain ⟨l, h1, h2, h3⟩ := ih fun q hq => h q (List.mem_cons_of_mem _ hq)
    obtain ⟨s, hs⟩ := Option.ne_none_iff_exists'.1 (h p (List.mem_cons_self ..))
    refine ⟨(p, s) :: l, by simp only [results, hs, h1], by simp [h2], ?_⟩
    intro x hx
    rcases List.mem_cons.1 hx with rfl | hx
    · exact hs
    · exact h3 x hx

theorem results_none (w : World) (o : Opts) : ∀ (ps : List String), (∃ p ∈ ps, w.stat o p = none) → results w o ps = none := by
  intro ps
  induction ps with
  | nil => rintro ⟨p, h, _⟩; simp at h
  | cons q ps ih =>
    rintro ⟨p, h, hn⟩
    simp only [results]
    rcases List.mem_cons.1 h with rfl | h
    · rw [hn]
    · rw [ih ⟨p, h, hn⟩]
      cases w.stat o q <;> rfl

theorem foldl_sum (k : String) : ∀ (l : List (String → Rat)) (x : Rat), l.foldl (fun s f => s + f k) x = x + (l.map fun f => f k).sum := by
  intro l
  induction l with
  | nil => intro x; simp only [List.foldl_nil, List.map_nil, List.sum_nil]; grind
  | cons f l ih => intro x; simp only [List.foldl_cons, ih, List.map_cons, List.sum_cons]; grind

/-- What has to be printed for the statistics of the feeds. -/
def Printed (o : Opts) (l : List (String × (String → Rat))) (p : Print) : Prop :=
  (o.json = false → p = .text o.summarize l) ∧
  (o.json = true → l.length = 1 → ∃ x, l = [x] ∧ p = .jsonOne x.2) ∧
  (o.json = true → l.length ≠ 1 → o.avg = false → p = .jsonAll l) ∧
  (o.json = true → l.length ≠ 1 → o.avg = true → ∃ m, p = .jsonOne m ∧ ∀ k, m k * (l.length : Rat) = (l.map fun x => x.2 k).sum)

theorem print_spec (o : Opts) (l : List (String × (String → Rat))) (h : ¬ (o.json = true ∧ o.avg = true ∧ l = [])) :
    ∃ p, print o l = some p ∧ Printed o l p := by
  unfold print
  cases hj : o.json with
  | false => exact ⟨_, rfl, fun _ => rfl, by simp [hj], by simp [hj], by simp [hj]⟩
  | true =>
    simp only [if_true]
    match l, h with
    | [x], _ => exact ⟨_, rfl, by simp [hj], fun _ _ => ⟨x, rfl, rfl⟩, by simp, by simp⟩
    | [], h =>
      cases ha : o.avg with
      | true => exact absurd ⟨hj, ha, rfl⟩ h
      | false => exact ⟨_, rfl, by simp [hj], by simp, fun _ _ _ => rfl, by simp [ha]⟩
    | x :: y :: l, _ =>
      cases ha : o.avg with
      | false => exact ⟨_, rfl, by simp [hj], by simp, fun _ _ _ => rfl, by simp [ha]⟩
      | true =>
        refine ⟨.jsonOne (mean ((x :: y :: l).map (·.2))), by simp, by simp [hj], by simp, by simp [ha], fun _ _ _ => ⟨_, rfl, ?_⟩⟩
        intro k
        unfold mean
        rw [foldl_sum, List.length_map, List.map_map]
        rw [Rat.div_mul_cancel (by
          have : (0 : Rat) < ((x :: y :: l).length : Rat) := by exact_mod_cast Nat.succ_pos _
          grind)]
        simp only [Function.comp_def]
        grind

/-- **C66 (results).** Without reports, with a ground truth that can be read: the program prints the statistics of every feed under the feed's own
path in the order of the paths, or the mean of each value; if some feed cannot be read it ends with code 1. The one exception is an average
of no feeds. -/
theorem C66_results (w : World) (items : List Item) (hp : Plain items) (hf : ∀ p, Item.feed p ∈ items → w.realpath p ≠ none) :
    ∃ o, Says w items o ∧
      (o.report = "" ∧ o.truth ≠ "" ∧ w.truthOk o.truth = true →
        ((∃ q ∈ o.feeds, w.stat o q = none) → run w (items.flatMap Item.render) = .exit 1) ∧
        ((∀ q ∈ o.feeds, w.stat o q ≠ none) → ¬ (o.json = true ∧ o.avg = true ∧ o.feeds = []) →
          ∃ p l, run w (items.flatMap Item.render) = .done p [] ∧ Gives w o l ∧ Printed o l p)) ∧
      (o.report = "" ∧ (o.truth = "" ∨ w.truthOk o.truth = false) → run w (items.flatMap Item.render) = .exit 1) := by
  obtain ⟨o, h1, h2⟩ := (C66_options w items hp).1 hf
  refine ⟨o, h2, ?_, ?_⟩
  · rintro ⟨r1, r2, r3⟩
    simp only [run, h1, if_pos r1, compareAll, if_neg r2, if_pos r3]
    refine ⟨fun hn => by rw [results_none w o _ hn], fun hs hne => ?_⟩
    obtain ⟨l, l1, l2, l3⟩ := results_some w o o.feeds hs
    have hne' : ¬ (o.json = true ∧ o.avg = true ∧ l = []) := by
      rintro ⟨a, b, rfl⟩; exact hne ⟨a, b, by rw [← l2]; rfl⟩
    obtain ⟨p, p1, p2⟩ := print_spec o l hne'
    refine ⟨p, l, ?_, ⟨l2, l3⟩, p2⟩
    simp [l1, finish, p1]
  · rintro ⟨r1, r2⟩
    simp only [run, h1, if_pos r1, compareAll]
    rcases r2 with r2 | r2
    · rw [if_pos r2]
    · simp only [r2, Bool.false_eq_true, if_false, ite_self]

/-- **C66 (reports), for at most one feed.** The report of the feed has exactly the lines of its comparisons.
Missing: more feeds, see `C66_negation_reports`. -/
theorem C66_reports_partial (w : World) (items : List Item) (hp : Plain items) (hf : ∀ p, Item.feed p ∈ items → w.realpath p ≠ none) :
    ∃ o, Says w items o ∧ ∀ q, o.feeds = [q] → o.report ≠ "" → o.truth ≠ "" → w.truthOk o.truth = true → w.stat o q ≠ none →
      (w.openOk (o.report ++ "/" ++ w.base q ++ ".fullreport.tsv") = true →
        ∃ p l, run w (items.flatMap Item.render) = .done p [(o.report ++ "/" ++ w.base q ++ ".fullreport.tsv", w.rows o q)] ∧
          Gives w o l ∧ Printed o l p) ∧
      (w.openOk (o.report ++ "/" ++ w.base q ++ ".fullreport.tsv") = false → run w (items.flatMap Item.render) = .abort) := by
  obtain ⟨o, h1, h2⟩ := (C66_options w items hp).1 hf
  refine ⟨o, h2, fun q hq r1 r2 r3 hs => ?_⟩
  obtain ⟨l, l1, l2, l3⟩ := results_some w o o.feeds (by rw [hq]; simpa using hs)
  have hne' : ¬ (o.json = true ∧ o.avg = true ∧ l = []) := by
    rintro ⟨_, _, rfl⟩; rw [hq] at l2; cases l2
  obtain ⟨p, p1, p2⟩ := print_spec o l hne'
  constructor
  · intro ho
    have ho' : w.openOk (reportName w o q) = true := ho
    refine ⟨p, l, ?_, ⟨l2, l3⟩, p2⟩
    rw [hq] at l1
    simp only [run, h1, if_neg r1, hq, openAll, ho', if_true, Option.map_some, compareAll, if_neg r2, if_pos r3, l1, finish, p1,
      List.map_cons, List.map_nil]
    simp only [List.zip_cons_cons, List.zip_nil_left, List.any_cons, List.any_nil, ne_eq, not_true_eq_false, decide_false, Bool.false_and,
      Bool.or_self, Bool.false_eq_true, if_false, reportName]
  · intro ho
    have ho' : w.openOk (reportName w o q) = false := ho
    simp only [run, h1, if_neg r1, hq, openAll, ho', Bool.false_eq_true, if_false]

theorem push_full (w : World) (v : Vec) (h : v.len = v.cap) : v.push w = ⟨v.buf + 1, w.grow v.len, v.len + 1⟩ := by
  simp [Vec.push, h]

theorem openAll_buf (w : World) (o : Opts) : ∀ (ps : List String) (v v' : Vec) (l : List Nat), openAll w o ps v = some (v', l) → v.buf ≤ v'.buf := by
  intro ps
  induction ps with
  | nil => intro v v' l h; simp only [openAll, Option.some.injEq, Prod.mk.injEq] at h; rw [h.1]; exact Nat.le_refl _
  | cons p ps ih =>
    intro v v' l h
    simp only [openAll] at h
    split at h
    · cases hr : openAll w o ps (v.push w) with
      | none => rw [hr] at h; cases h
      | some r =>
        rw [hr] at h
        simp only [Option.map_some, Option.some.injEq, Prod.mk.injEq] at h
        have := ih _ r.1 r.2 hr
        rw [h.1] at this
        have : v.buf ≤ (v.push w).buf := by unfold Vec.push; split <;> simp
        omega
    · cases h

/-- **C66 is false for the reports of several feeds.** The pointer to the first stream is not valid any more once the vector of streams has
grown: with a vector that starts with room for one element, every run with at least two feeds whose first feed has something to report uses a
stream that is gone. -/
theorem C66_negation_reports (w : World) (hg : w.grow 0 = 1) (items : List Item) (hp : Plain items)
    (hf : ∀ p, Item.feed p ∈ items → w.realpath p ≠ none) :
    ∃ o, Says w items o ∧ ∀ q q' qs, o.feeds = q :: q' :: qs → o.report ≠ "" → o.truth ≠ "" → w.truthOk o.truth = true →
      (∀ x ∈ o.feeds, w.stat o x ≠ none ∧ w.openOk (reportName w o x) = true) → w.rows o q ≠ [] →
      run w (items.flatMap Item.render) = .undefined := by
  obtain ⟨o, h1, h2⟩ := (C66_options w items hp).1 hf
  refine ⟨o, h2, fun q q' qs hq r1 r2 r3 hs hr => ?_⟩
  obtain ⟨l, l1, l2, l3⟩ := results_some w o o.feeds fun x hx => (hs x hx).1
  have op : ∀ (ps : List String) (v : Vec), (∀ x ∈ ps, w.openOk (reportName w o x) = true) → ∃ r, openAll w o ps v = some r := by
    intro ps
    induction ps with
    | nil => intro v _; exact ⟨_, rfl⟩
    | cons p ps ih =>
      intro v h
      obtain ⟨r, hr⟩ := ih (v.push w) fun x hx => h x (List.mem_cons_of_mem _ hx)
      exact ⟨_, by simp only [openAll, h p (List.mem_cons_self ..), if_true, hr]; rfl⟩
  have e1 : (({} : Vec).push w) = ⟨1, 1, 1⟩ := by simp [Vec.push, hg]
  have e2 : (Vec.push w ⟨1, 1, 1⟩) = ⟨2, w.grow 1, 2⟩ := by simp [Vec.push]
  obtain ⟨⟨v', ps⟩, hv⟩ := op qs ⟨2, w.grow 1, 2⟩ (fun x hx => (hs x (by rw [hq]; simp [hx])).2)
  have hb := openAll_buf w o _ _ _ _ hv
  have ho1 := (hs q (by rw [hq]; simp)).2
  have ho2 := (hs q' (by rw [hq]; simp)).2
  have ho : openAll w o o.feeds {} = some (v', 1 :: 2 :: ps) := by
    rw [hq]
    simp only [openAll, e1, e2, ho1, ho2, if_true, hv, Option.map_some]
  have hne : (1 : Nat) ≠ v'.buf := by simp only at hb; omega
  simp only [run, h1, if_neg r1, ho, compareAll, if_neg r2, if_pos r3, l1]
  rw [if_pos]
  rw [hq]
  simp only [List.zip_cons_cons, List.any_cons]
  have : (w.rows o q).isEmpty = false := by cases hx : w.rows o q with
    | nil => exact absurd hx hr
    | cons => rfl
  simp [this, hne]

/-- **Limit of C66.** An average of no feeds uses the first of no collectors. -/
theorem C66_limit_no_feeds (w : World) (t : String) (ht : t ≠ "") (hw : w.truthOk t = true) :
    run w ["--json", "--avg", "-g", t] = .undefined := by
  simp [run, parse, start, compareAll, ht, hw, results, finish, print]

/-- **C66 is false for the length of segments.** The help says metres, but only the default is converted from metres: saying the default
gives another length. -/
theorem C66_negation_segment_length (w : World) (h : 1 < w.mPerDeg) (h25 : w.atoi "25" = 25) :
    ∃ o o', parse w [] (start w) = .ok o ∧ parse w ["--segment-length", "25"] (start w) = .ok o' ∧ o.segLen < o'.segLen := by
  refine ⟨_, _, rfl, rfl, ?_⟩
  change 25 / w.mPerDeg < (w.atoi "25" : Rat)
  rw [h25, Rat.div_lt_iff (by grind)]
  have : ((25 : Int) : Rat) = 25 := rfl
  rw [this]
  grind

/-! ### non-vacuity -/

def exW : World :=
  { realpath := fun p => if p = "none" then none else some ("/d/" ++ p)
    atoi := fun s => if s = "25" then 25 else 2
    mPerDeg := 111319
    base := fun p => if p = "/d/a.zip" then "a.zip" else "b.zip"
    openOk := fun _ => true
    truthOk := fun t => t ≠ "bad"
    stat := fun _ p => if p = "/d/bad" then none else some fun _ => if p = "/d/a.zip" then 3 else 6
    rows := fun _ _ => ["row"]
    grow := fun n => if n = 0 then 1 else 2 * n }

def exItems : List Item := [.feed "b.zip", .truth "gt", .json, .feed "a.zip", .avg, .feed "b.zip"]

example : Plain exItems := by
  intro i hi p h
  subst h
  simp only [exItems, List.mem_cons, Item.feed.injEq, reduceCtorEq, false_or, List.not_mem_nil, or_false] at hi
  rcases hi with rfl | rfl | rfl <;> decide
example : exItems.flatMap Item.render = ["b.zip", "-g", "gt", "--json", "a.zip", "--avg", "b.zip"] := rfl
example : (match parse exW (exItems.flatMap Item.render) (start exW) with | .ok o => some o.feeds | .error _ => none) =
    some ["/d/a.zip", "/d/b.zip"] := by decide +kernel
example : (match run exW (exItems.flatMap Item.render) with | .done (.jsonOne m) r => some (m "avg-fr", r) | _ => none) =
    some (9 / 2, []) := by decide +kernel
example : (match run exW ["-f", "/tmp", "-g", "gt", "a.zip"] with | .done (.text _ l) r => some (l.map (·.1), r) | _ => none) =
    some (["/d/a.zip"], [("/tmp/a.zip.fullreport.tsv", ["row"])]) := by decide +kernel
example : (match run exW ["-f", "/tmp", "-g", "gt", "a.zip", "b.zip"] with | .undefined => true | _ => false) = true := by decide +kernel
example : (match run exW ["-g", "gt", "none"] with | .exit n => some n | _ => none) = some 1 := by decide +kernel
example : exW.grow 0 = 1 ∧ 1 < exW.mPerDeg ∧ exW.atoi "25" = 25 := by decide +kernel

end Verif.Eval.Main
