import Verif.Lemmas.Flat
import Verif.Lemmas.Reorder
import Verif.Spec.Default
/-!
# Specification: namespaces are not mixed

Conditions, on the types and messages of a compilation, under which the end-to-end theorems of
`Props/EndToEnd.lean` hold.  They are about namespaces only; the counterexamples
`C03_fails_null_namespace_import` … in `Props/Output.lean` show that they cannot be dropped.
A full name without a dot is that of a type in no namespace.
-/

namespace Avdl.Spec

/-- A type in a namespace refers only to types in a namespace, and no type has the full name of a
primitive. -/
structure Coherent (types : List Schema) : Prop where
  separate : ∀ t ∈ types, ∀ full, t.fullName? = some full →
    ∀ x sp, RefersTo t x sp → DotFree x → DotFree full
  notPrimitive : ∀ x ∈ fullNames types, x ∉ primitiveTypeNames

/-- The same for a protocol: a protocol in a namespace has only types in a namespace; moreover
messages do not define types in-line. -/
structure CoherentProtocol (p : Protocol) : Prop where
  types : Coherent p.types
  namespaced : nsStr p.ns ≠ "" → ∀ x ∈ fullNames p.types, ¬ DotFree x
  messages : ∀ nm ∈ p.messages, nm.2.noDefs

/-- Types that all are in a namespace are coherent. -/
theorem Coherent.of_namespaced {types : List Schema} (h : ∀ x ∈ fullNames types, ¬ DotFree x)
    (hr : ∀ t ∈ types, ∀ x sp, RefersTo t x sp → x ∈ fullNames types) : Coherent types where
  separate t ht full _ x sp hx hd := absurd hd (h x (hr t ht x sp hx))
  notPrimitive x hx hp :=
    h x hx ((by decide : ∀ x ∈ primitiveTypeNames, DotFree x) x hp)

/-- Types none of which is in a namespace are coherent unless one has the name of a primitive. -/
theorem Coherent.of_unnamespaced {types : List Schema} (h : ∀ x ∈ fullNames types, DotFree x)
    (hp : ∀ x ∈ fullNames types, x ∉ primitiveTypeNames) : Coherent types where
  separate t ht full hf _ _ _ _ := h full (mem_fullNames.mpr ⟨t, ht, hf⟩)
  notPrimitive := hp

end Avdl.Spec
