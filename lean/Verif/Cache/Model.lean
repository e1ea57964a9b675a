import Verif.Ident.Props

/-! # Model of the verification cache: `rflx/specification/cache.py` -/

namespace Verif.Cache
open Verif

/-- What the cache reads of a message: `message.full_name` (`rflx/model/type_.py:37-38`), `str(message)`
(`rflx/model/message.py:154-178`) and `str(t)` for `t in message.types.values()`. -/
structure Msg where
  fullName : PyStr
  text : PyStr
  types : List PyStr

/-- `Dict[str, str]` in the order of insertion. -/
abbrev Dict := List (PyStr × PyStr)

/-- `k in d`. -/
def has (d : Dict) (k : PyStr) : Bool := d.any fun e => e.1 == k

/-- `d.get(k)`. -/
def get? (d : Dict) (k : PyStr) : Option PyStr := (d.find? fun e => e.1 == k).map (·.2)

/-- `d[k] = v`. -/
def set (d : Dict) (k v : PyStr) : Dict :=
  match d with
  | [] => [(k, v)]
  | e :: d => if e.1 == k then (k, v) :: d else e :: set d k v

/-! ## JSON -/

/-- A string as written by `json.dump`. Simplified: control characters and characters outside of ASCII are escaped as
well; they do not occur in identifiers and hexadecimal digests. -/
def jsonChars : PyStr → PyStr
  | [] => []
  | c :: cs => if c = '"' then '\\' :: '"' :: jsonChars cs else if c = '\\' then '\\' :: '\\' :: jsonChars cs else c :: jsonChars cs

/-- A string literal of JSON. -/
def jsonStr (s : PyStr) : PyStr := '"' :: (jsonChars s ++ ['"'])

/-- An entry of an object. -/
def jsonEntry (e : PyStr × PyStr) : PyStr := jsonStr e.1 ++ ':' :: ' ' :: jsonStr e.2

/-- The remaining entries of an object and the closing brace. -/
def jsonTail : Dict → PyStr
  | [] => ['}']
  | e :: d => ',' :: ' ' :: (jsonEntry e ++ jsonTail d)

/-- `json.dump(d, f)` for a dictionary from strings to strings, `rflx/specification/cache.py:54`. -/
def dump : Dict → PyStr
  | [] => ['{', '}']
  | e :: d => '{' :: (jsonEntry e ++ jsonTail d)

/-- The characters of a string literal after the opening quotation mark, and the rest of the input. -/
def readChars : PyStr → Option (PyStr × PyStr)
  | [] => none
  | '"' :: cs => some ([], cs)
  | '\\' :: '"' :: cs => (readChars cs).map fun r => ('"' :: r.1, r.2)
  | '\\' :: '\\' :: cs => (readChars cs).map fun r => ('\\' :: r.1, r.2)
  | '\\' :: _ => none
  | c :: cs => (readChars cs).map fun r => (c :: r.1, r.2)

/-- A string literal and the rest of the input. -/
def readStr : PyStr → Option (PyStr × PyStr)
  | '"' :: cs => readChars cs
  | _ => none

/-- An entry of an object and the rest of the input. -/
def readEntry (s : PyStr) : Option ((PyStr × PyStr) × PyStr) :=
  match readStr s with
  | some (k, ':' :: ' ' :: s) =>
    match readStr s with
    | some (v, s) => some ((k, v), s)
    | none => none
  | _ => none

/-- The remaining entries of an object. The first argument bounds the number of entries. -/
def readTail : Nat → PyStr → Dict → Option Dict
  | 0, _, _ => none
  | k + 1, s, d =>
    match s with
    | ['}'] => some d
    | ',' :: ' ' :: s =>
      match readEntry s with
      | some (e, s) => readTail k s (set d e.1 e.2)
      | none => none
    | _ => none

/-- `json.load(f)`, `rflx/specification/cache.py:46`: `none` stands for `JSONDecodeError`. Only texts in the form of
`json.dump` are modelled (no other white space or escapes, no values other than strings): what a tool other than
RecordFlux writes into the file is not considered. -/
def load : PyStr → Option Dict
  | ['{', '}'] => some []
  | '{' :: s =>
    match readEntry s with
    | some (e, s) => readTail (s.length + 1) s [e]
    | none => none
  | _ => none

/-! ## The cache of a process -/

/-- `sep.join(l)` for `sep = "|"`. -/
def joinBar : List PyStr → PyStr
  | [] => []
  | [s] => s
  | s :: ss => s ++ '|' :: joinBar ss

/-- The text that is hashed, `rflx/specification/cache.py:58-59`. -/
def hashInput (version : PyStr) (m : Msg) : PyStr := version ++ '|' :: (m.text ++ '|' :: joinBar m.types)

/-- `_message_hash`, `rflx/specification/cache.py:56-59`. `md5` stands for `hashlib.md5(...).hexdigest()`. -/
def messageHash (md5 : PyStr → PyStr) (version : PyStr) (m : Msg) : PyStr := md5 (hashInput version m)

/-- `Cache`, `rflx/specification/cache.py:13-22`, in a process that runs a version of RecordFlux. -/
structure Cache where
  enabled : Bool
  version : PyStr
  verification : Dict

/-- `is_verified`, `rflx/specification/cache.py:24-30`. -/
def Cache.isVerified (md5 : PyStr → PyStr) (c : Cache) (m : Msg) : Bool :=
  if !c.enabled then false
  else match get? c.verification m.fullName with
    | some h => h == messageHash md5 c.version m
    | none => false

/-- `add_verified` without the effect of `_write_cache`, `rflx/specification/cache.py:32-42`: the new cache and whether
`_write_cache` is called. -/
def Cache.addVerified (md5 : PyStr → PyStr) (c : Cache) (m : Msg) : Cache × Bool :=
  if !c.enabled then (c, false)
  else
    let h := messageHash md5 c.version m
    match get? c.verification m.fullName with
    | some h' => if h != h' then ({ c with verification := set c.verification m.fullName h }, true) else (c, false)
    | none => ({ c with verification := set c.verification m.fullName h }, true)

/-- `Cache.__init__` and `_load_cache`, `rflx/specification/cache.py:14-22,44-49`. `none`: the file does not exist. -/
def Cache.new (enabled : Bool) (version : PyStr) (file : Option PyStr) : Cache :=
  if enabled then ⟨true, version, (file.bind load).getD []⟩ else ⟨false, version, []⟩

/-- `Parser`, `rflx/specification/parser.py:1195-1205`: the parts used for verification. -/
structure Parser where
  skipVerification : Bool
  cache : Cache

/-- `Parser.__init__`, `rflx/specification/parser.py:1195-1205`. -/
def Parser.new (skipVerification cached : Bool) (version : PyStr) (file : Option PyStr) : Parser :=
  ⟨skipVerification, Cache.new (!skipVerification && cached) version file⟩

/-- The argument `skip_proof` in `create_proven_message`, `rflx/specification/parser.py:1098-1100`. -/
def Parser.skipProof (md5 : PyStr → PyStr) (p : Parser) (m : Msg) : Bool := p.skipVerification || p.cache.isVerified md5 m

/-! ## Histories -/

/-- The cache file, the running processes and what they are about to write. `verified` records which messages were
verified successfully by which version; the code has no such record. -/
structure World where
  file : Option PyStr
  procs : Nat → Option Parser
  writing : Nat → Option PyStr
  verified : List (PyStr × Msg)

/-- Update of a function at one argument. -/
def upd {α} (f : Nat → α) (i : Nat) (v : α) : Nat → α := fun j => if j = i then v else f j

/-- No cache file, no process. -/
def World.initial : World := ⟨none, fun _ => none, fun _ => none, []⟩

/-- `create_proven_message`, `rflx/specification/parser.py:1095-1104`, in a process, if no exception is raised: the
message is verified unless this is skipped, then `add_verified` is called. `_write_cache` starts with
`open(..., "w")`, which truncates the file, `rflx/specification/cache.py:51-53`. -/
def World.create (md5 : PyStr → PyStr) (w : World) (i : Nat) (p : Parser) (m : Msg) : World :=
  let (c, write) := p.cache.addVerified md5 m
  { file := if write then some [] else w.file
    procs := upd w.procs i (some { p with cache := c })
    writing := if write then upd w.writing i (some (dump c.verification)) else w.writing
    verified := if p.skipProof md5 m then w.verified else (p.cache.version, m) :: w.verified }

/-- What may happen. After `open(..., "w")` the text is written when the file is closed
(`rflx/specification/cache.py:53-54`), over the beginning of what the file then contains: another process may have
written in between. Simplified: this is one operation; if it is interrupted, a part of the text is left in the file, and
this only happens if no other process wrote to the file after it was truncated. -/
inductive Step (md5 : PyStr → PyStr) : World → World → Prop
  /-- A process starts. -/
  | start (w : World) (i : Nat) (skip cached : Bool) (version : PyStr) (h : w.procs i = none) :
      Step md5 w { w with procs := upd w.procs i (some (.new skip cached version w.file)) }
  /-- A message is created successfully. -/
  | create (w : World) (i : Nat) (p : Parser) (m : Msg) (hp : w.procs i = some p) (hw : w.writing i = none) :
      Step md5 w (w.create md5 i p m)
  /-- The file is written and closed. -/
  | flush (w : World) (i : Nat) (t : PyStr) (h : w.writing i = some t) :
      Step md5 w { w with file := w.file.map fun old => t ++ old.drop t.length, writing := upd w.writing i none }
  /-- Writing the file is interrupted. -/
  | partialFlush (w : World) (i : Nat) (t : PyStr) (n : Nat) (h : w.writing i = some t) (hf : w.file = some []) :
      Step md5 w { w with file := some (t.take n), writing := upd w.writing i none, procs := upd w.procs i none }
  /-- A process ends or is interrupted, at any time; this includes failed verifications. -/
  | stop (w : World) (i : Nat) :
      Step md5 w { w with procs := upd w.procs i none, writing := upd w.writing i none }
  /-- The cache file is deleted. -/
  | delete (w : World) (h : ∀ i, w.writing i = none) : Step md5 w { w with file := none }

/-- The states after any history. -/
inductive Reachable (md5 : PyStr → PyStr) : World → Prop
  | initial : Reachable md5 .initial
  | step {w w' : World} : Reachable md5 w → Step md5 w w' → Reachable md5 w'

end Verif.Cache
