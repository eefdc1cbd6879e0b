import Verif.Model.Api

/-!
# What may happen to the objects scripts hold

The vocabulary of C95, C96 and C97.  Only the memory of `Verif.Model.Api` is mentioned, no function
that changes it.
-/

namespace Gobufr

variable {F : Type}

namespace Objects

/-- From `a` to `b` objects were added and lists extended, nothing else: fields stay as they are, a
section keeps its number, description, start and fields and may get further, new fields behind them;
a message keeps its path and sections and may get further, new sections behind them.  (The padding
of a section and the proxy fields of a message may change.) -/
structure Grows (a b : Mem F) : Prop where
  fields : a.fields <+: b.fields
  sections : ∀ (i : SecRef) (x : SecObj), a.sections[i]? = some x → ∃ y more, b.sections[i]? = some y ∧
    y.number = x.number ∧ y.description = x.description ∧ y.startByteIndex = x.startByteIndex ∧
    y.fields = x.fields ++ more ∧ ∀ f ∈ more, a.fields.length ≤ f
  messages : ∀ (i : MsgRef) (x : MsgObj), a.messages[i]? = some x → ∃ y more, b.messages[i]? = some y ∧
    y.inputPath = x.inputPath ∧ y.sections = x.sections ++ more ∧ ∀ s ∈ more, a.sections.length ≤ s

/-- Every field is in exactly one section and every section in exactly one message; both in the
order of their creation; a proxy field is a field with the name it is stored under. -/
structure Owned (mem : Mem F) : Prop where
  fields : (mem.sections.flatMap (·.fields)).Perm (List.range mem.fields.length)
  sections : (mem.messages.flatMap (·.sections)).Perm (List.range mem.sections.length)
  fieldOrder : ∀ s ∈ mem.sections, s.fields.Pairwise (· < ·)
  sectionOrder : ∀ m ∈ mem.messages, m.sections.Pairwise (· < ·)
  proxies : ∀ m ∈ mem.messages, ∀ e ∈ m.proxyFields, ∃ f, mem.fields[e.2]? = some f ∧ f.name = e.1

/-- A factory between two calls of a script: its objects are in order and its pointers lead to
existing objects; there is no current section without a current message. -/
structure Ready (p : PFac F) : Prop where
  owned : Owned p.mem
  message : ∀ i, p.message = some i → i < p.mem.messages.length
  sec : ∀ j, p.sec = some j → j < p.mem.sections.length ∧ p.message ≠ none

/-- The current section is one of the current message. -/
def Current (p : PFac F) : Prop :=
  ∃ i m j, p.message = some i ∧ p.mem.messages[i]? = some m ∧ p.sec = some j ∧ j ∈ m.sections

/-- The field is in a section of the message. -/
def Within (mem : Mem F) (f : FieldRef) (i : MsgRef) : Prop :=
  ∃ m j s, mem.messages[i]? = some m ∧ j ∈ m.sections ∧ mem.sections[j]? = some s ∧ f ∈ s.fields

/-- The objects of `a` are all in `b`, unchanged, and objects created later are behind them. -/
structure Untouched (a b : Mem F) : Prop where
  fields : a.fields <+: b.fields
  sections : a.sections <+: b.sections
  messages : a.messages <+: b.messages

/-- What a run that began with the objects `a` and ended with `b` returned, compared to a message given
as a value: the message returned is a new object, the only one, and looks like the value; it failed the same way if
there is no value. -/
def Delivers (a b : Mem F) : Outcome (Option MsgRef) → Outcome (Message F) → Prop
  | .ok i, .ok m => i = some a.messages.length ∧ b.message? a.messages.length = some m ∧
      b.messages.length = a.messages.length + 1
  | .err e, .err e' => e = e'
  | .panic w, .panic w' => w = w'
  | .diverge, .diverge => True
  | _, _ => False

end Objects

/-- The script nowhere starts a new message. -/
inductive Prog.KeepsMessage : Prog F → Prop where
  | ret (v) : KeepsMessage (.ret v)
  | error (e) : KeepsMessage (.error e)
  | call (op) (k) : (∀ path, op ≠ .newMessage path) → (∀ v, KeepsMessage (k v)) →
      KeepsMessage (.call op k)
  | pcall (f) (k) : KeepsMessage f → (∀ o, KeepsMessage (k o)) → KeepsMessage (.pcall f k)

end Gobufr
