/-!
# Type tags: `is_value`, `is_instance`, `is_valid`

The tag is the first `int` of an object.  The enumeration is an `unsigned int` with GCC and Clang, an `int`
with Microsoft's compiler; `cmp` is the comparison of tags, which depends on that.
-/
namespace Verif.Ty

abbrev Tag := BitVec 32

/-- `include/raii.h:30-91`: the named tags used in comparisons. -/
def null : Tag := 0
def nan : Tag := 25
def noInstance : Tag := 50

/-- Comparison `a < b` of tags with either signedness. -/
def lt (signed : Bool) (a b : Tag) : Bool := if signed then a.slt b else a.ult b

/-- `src/raii.c:710-712` `is_value`. -/
def isValue (signed : Bool) (t : Tag) : Bool := lt signed null t && lt signed t nan

/-- `src/raii.c:714-716` `is_instance`. -/
def isInstance (signed : Bool) (t : Tag) : Bool := lt signed nan t && lt signed t noInstance

/-- `src/raii.c:718-720` `is_valid`. -/
def isValid (signed : Bool) (t : Tag) : Bool := isValue signed t || isInstance signed t

/-- `src/raii.c:702-704` `is_type`. -/
def isType (t check : Tag) : Bool := t == check

end Verif.Ty
