import Verif.Model.Args

/-!
# Command lines (specification)

What a command line means, read from left to right.
-/

namespace ALint.Spec
open ALint

/-- Options are a letter behind one dash, without a value, or a word behind two. -/
structure TidyParser (p : ArgParser) : Prop where
  names : ∀ o ∈ p.opts, (∃ c, o.1 = ['-', c] ∧ c ≠ '-' ∧ c ≠ '=' ∧ ∀ d, o.2 ≠ .unique d) ∨
    ∃ s, o.1 = '-' :: '-' :: s ∧ s ≠ [] ∧ '=' ∉ s
  distinct : (p.opts.map (·.1)).Nodup

/-- How a group of letters ends. -/
inductive LettersEnd where
  | fine
  /-- with something that is no option -/
  | unknown
  /-- with `=` or `-` -/
  | wrong
deriving DecidableEq

/-- A group of letters is as many options, up to the first letter that is none. -/
inductive Letters (p : ArgParser) : Str → List OptAct → LettersEnd → Prop
  | done : Letters p [] [] .fine
  | wrong {c : Char} {s : Str} : c = '=' ∨ c = '-' → Letters p (c :: s) [] .wrong
  | unknown {c : Char} {s : Str} : c ≠ '=' → c ≠ '-' → (∀ a, (['-', c], a) ∉ p.opts) → Letters p (c :: s) [] .unknown
  | more {c : Char} {s : Str} {a : OptAct} {acts : List OptAct} {e : LettersEnd} :
      (['-', c], a) ∈ p.opts → Letters p s acts e → Letters p (c :: s) (a :: acts) e

/-- The option `name` is meant by `pre`: it is that, or begins with it and `pre` is no option itself. -/
def MeantBy (p : ArgParser) (pre name : Str) : Prop := name = pre ∨ ((∀ a, (pre, a) ∉ p.opts) ∧ pre <+: name)

/-- Is the word about options? -/
def Dashed (w : Str) : Prop := ∃ c s, w = '-' :: c :: s

/-- A word of two dashes, the name of an option, and perhaps `=` and a value. -/
inductive LongWord : Str → Str → Option Str → Prop
  | bare {s : Str} : '=' ∉ s → LongWord ('-' :: '-' :: s) ('-' :: '-' :: s) none
  | valued {s v : Str} : '=' ∉ s → LongWord ('-' :: '-' :: s ++ '=' :: v) ('-' :: '-' :: s) (some v)

/-- No option is meant. -/
def NoOption (p : ArgParser) (w : Str) : Prop :=
  (∃ c s, w = '-' :: c :: s ∧ c ≠ '-' ∧ ∀ a, (['-', c], a) ∉ p.opts) ∨
  ∃ pre v, LongWord w pre v ∧ ∀ name a, (name, a) ∈ p.opts → ¬ MeantBy p pre name

/-- What a word can be. -/
inductive Word where
  /-- the name of a file, or the value of the option before it -/
  | plain
  /-- an option, perhaps with a value -/
  | option (act : OptAct) (value : Option Str)
  | letters (acts : List OptAct) (e : LettersEnd)
  | unknown
  | ambiguous
deriving DecidableEq

/-- What a word other than `--` is, if there is no `--` before it. -/
inductive WordIs (p : ArgParser) (w : Str) : Word → Prop
  | plain : ¬ Dashed w → WordIs p w .plain
  | number : Dashed w → NoOption p w → (p.negNum w = true ∨ ' ' ∈ w) → WordIs p w .plain
  | unknown : Dashed w → NoOption p w → p.negNum w = false → ' ' ∉ w → WordIs p w .unknown
  | letters {c : Char} {s : Str} {a : OptAct} {acts : List OptAct} {e : LettersEnd} : w = '-' :: c :: s →
      (['-', c], a) ∈ p.opts → c ≠ '-' → Letters p s acts e → WordIs p w (.letters (a :: acts) e)
  | option {pre name : Str} {v : Option Str} {a : OptAct} : LongWord w pre v → (name, a) ∈ p.opts → MeantBy p pre name →
      (∀ name' a', (name', a') ∈ p.opts → MeantBy p pre name' → name' = name) → WordIs p w (.option a v)
  | ambiguous {pre name name' : Str} {v : Option Str} {a a' : OptAct} : LongWord w pre v →
      (name, a) ∈ p.opts → MeantBy p pre name → (name', a') ∈ p.opts → MeantBy p pre name' → name ≠ name' →
      WordIs p w .ambiguous

/-- What was given so far. -/
structure Given where
  file : Option Str
  /-- the options that may be given once, with their values -/
  stored : List (Str × Str)
  flags : List Str
  /-- was there anything that has no place? -/
  extra : Bool
deriving DecidableEq

/-- How a command line ends: with settings, or without. -/
abbrev ArgEnd := Except ArgStop ArgSpace

/-- At the end of the command line. -/
def Given.finish (p : ArgParser) (g : Given) : ArgEnd :=
  if g.extra then .error .refused else .ok ⟨g.file.getD p.default, g.stored, g.flags⟩

/-- Options without value, one after the other; `none` if one of them asks for help. -/
def Given.set (g : Given) : List OptAct → Option Given
  | [] => some g
  | .flag d :: acts => Given.set { g with flags := g.flags ++ [d] } acts
  | _ :: _ => none

/-- What becomes of a command line without ambiguous words. -/
inductive LineGoes (p : ArgParser) : Given → List Str → ArgEnd → Prop
  | nil {g : Given} : LineGoes p g [] (g.finish p)
  /-- the first word that belongs to no option is the file -/
  | file {g : Given} {w : Str} {ws : List Str} {e : ArgEnd} : w ≠ c! "--" → WordIs p w .plain → g.file = none →
      ws.head? ≠ some (c! "--") → LineGoes p { g with file := some w } ws e → LineGoes p g (w :: ws) e
  /-- `--` directly behind it is dropped -/
  | fileDashes {g : Given} {w : Str} {ws : List Str} : w ≠ c! "--" → WordIs p w .plain → g.file = none →
      LineGoes p g (w :: c! "--" :: ws)
        (Given.finish p { g with file := some w, extra := g.extra || !ws.isEmpty })
  /-- behind `--` everything is taken as it is -/
  | dashes {g : Given} {ws : List Str} : g.file = none →
      LineGoes p g (c! "--" :: ws) (Given.finish p { g with file := ws.head?, extra := g.extra || 2 ≤ ws.length })
  | lateDashes {g : Given} {ws : List Str} : g.file ≠ none → LineGoes p g (c! "--" :: ws) (.error .refused)
  | second {g : Given} {w : Str} {ws : List Str} {e : ArgEnd} : w ≠ c! "--" → WordIs p w .plain → g.file ≠ none →
      LineGoes p { g with extra := true } ws e → LineGoes p g (w :: ws) e
  | unknown {g : Given} {w : Str} {ws : List Str} {e : ArgEnd} : w ≠ c! "--" → WordIs p w .unknown →
      LineGoes p { g with extra := true } ws e → LineGoes p g (w :: ws) e
  | lettersWrong {g : Given} {w : Str} {ws : List Str} {acts : List OptAct} : w ≠ c! "--" →
      WordIs p w (.letters acts .wrong) → LineGoes p g (w :: ws) (.error .refused)
  | lettersHelp {g : Given} {w : Str} {ws : List Str} {acts : List OptAct} {e : LettersEnd} : w ≠ c! "--" →
      WordIs p w (.letters acts e) → e ≠ .wrong → g.set acts = none → LineGoes p g (w :: ws) (.error .help)
  | letters {g g' : Given} {w : Str} {ws : List Str} {acts : List OptAct} {e : LettersEnd} {o : ArgEnd} : w ≠ c! "--" →
      WordIs p w (.letters acts e) → e ≠ .wrong → g.set acts = some g' →
      LineGoes p { g' with extra := g'.extra || e = .unknown } ws o → LineGoes p g (w :: ws) o
  | help {g : Given} {w : Str} {ws : List Str} : w ≠ c! "--" → WordIs p w (.option .help none) →
      LineGoes p g (w :: ws) (.error .help)
  | flag {g : Given} {w : Str} {ws : List Str} {d : Str} {o : ArgEnd} : w ≠ c! "--" → WordIs p w (.option (.flag d) none) →
      LineGoes p { g with flags := g.flags ++ [d] } ws o → LineGoes p g (w :: ws) o
  /-- these take no value -/
  | ignored {g : Given} {w v : Str} {ws : List Str} {a : OptAct} : w ≠ c! "--" → WordIs p w (.option a (some v)) →
      (∀ d, a ≠ .unique d) → LineGoes p g (w :: ws) (.error .refused)
  /-- an option given for the second time -/
  | again {g : Given} {w d : Str} {v : Option Str} {ws : List Str} : w ≠ c! "--" →
      WordIs p w (.option (.unique d) v) → d ∈ g.stored.map (·.1) → LineGoes p g (w :: ws) (.error .refused)
  | value {g : Given} {w d v : Str} {ws : List Str} {o : ArgEnd} : w ≠ c! "--" →
      WordIs p w (.option (.unique d) (some v)) → d ∉ g.stored.map (·.1) →
      LineGoes p { g with stored := (d, v) :: g.stored } ws o → LineGoes p g (w :: ws) o
  | valueNext {g : Given} {w d v : Str} {ws : List Str} {o : ArgEnd} : w ≠ c! "--" →
      WordIs p w (.option (.unique d) none) → d ∉ g.stored.map (·.1) → v ≠ c! "--" → WordIs p v .plain →
      LineGoes p { g with stored := (d, v) :: g.stored } ws o → LineGoes p g (w :: v :: ws) o
  | valueMissing {g : Given} {w d : Str} {ws : List Str} : w ≠ c! "--" → WordIs p w (.option (.unique d) none) →
      (∀ v ∈ ws.head?, v = c! "--" ∨ ¬ WordIs p v .plain) → LineGoes p g (w :: ws) (.error .refused)

/-- The words before the first `--`. -/
def beforeDashes (ws : List Str) : List Str := ws.takeWhile (· ≠ c! "--")

/-- What becomes of a command line. -/
inductive CommandLine (p : ArgParser) (ws : List Str) : ArgEnd → Prop
  | ambiguous : (∃ w ∈ beforeDashes ws, WordIs p w .ambiguous) → CommandLine p ws (.error .refused)
  | read {e : ArgEnd} : (∀ w ∈ beforeDashes ws, ¬ WordIs p w .ambiguous) → LineGoes p ⟨none, [], [], false⟩ ws e →
      CommandLine p ws e

/-- A word with its place in an accepted line. -/
inductive FineWord (p : ArgParser) (w : Str) : Prop
  | plain : WordIs p w .plain → FineWord p w
  | letters {acts : List OptAct} : WordIs p w (.letters acts .fine) → (∀ a ∈ acts, ∃ d, a = .flag d) → FineWord p w
  | flag {d : Str} : WordIs p w (.option (.flag d) none) → FineWord p w
  | unique {d : Str} {v : Option Str} : WordIs p w (.option (.unique d) v) → FineWord p w

/-- The word sets the flag `d`. -/
def GivesFlag (p : ArgParser) (w d : Str) : Prop :=
  WordIs p w (.option (.flag d) none) ∨ ∃ acts, WordIs p w (.letters acts .fine) ∧ .flag d ∈ acts

/-- Among the words is one that gives the option `d` the value `v`: with `=`, or as the next word. -/
def GivesValue (p : ArgParser) (ws : List Str) (d v : Str) : Prop :=
  ∃ a w b, (ws = a ++ w :: b ∧ WordIs p w (.option (.unique d) (some v))) ∨
    (ws = a ++ w :: v :: b ∧ WordIs p w (.option (.unique d) none))

/-- What the commands make of a command line: the help and exit status 0, a complaint and exit status 2, or what
`run` does with the settings. -/
inductive RunsWith (tx : ArgTexts) (ws : List Str) (run : ArgSpace → CmdRun) : ArgEnd → CmdRun → Prop
  | help : RunsWith tx ws run (.error .help) ⟨tx.help, [], .exit 0⟩
  | refused : RunsWith tx ws run (.error .refused) ⟨[], tx.usage ws, .exit 2⟩
  | run {ns : ArgSpace} : RunsWith tx ws run (.ok ns) (run ns)

end ALint.Spec
