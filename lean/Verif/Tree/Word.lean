/-!
# Model of `ParentColor` (src/internal/rb_tree/node.rs:4-83)

`usize` is 64 bits.
-/

set_option autoImplicit false

namespace Verif

/-- `Color` (src/internal/rb_tree/node.rs:4-10). -/
inductive Color where
  | red
  | black
  deriving DecidableEq, Repr

/-- `color as usize` (src/internal/rb_tree/node.rs:8-9). -/
def Color.word : Color → BitVec 64
  | .red => 0
  | .black => 1

/-- `Color::from(u32)` (src/internal/rb_tree/node.rs:12-20); `none` is the panic. -/
def Color.ofU32 (v : BitVec 32) : Option Color :=
  if v = 0 then some .red else if v = 1 then some .black else none

/-- `ParentColor` (src/internal/rb_tree/node.rs:22-29). -/
abbrev PWord := BitVec 64

namespace PWord

/-- `Default` (src/internal/rb_tree/node.rs:75-83). -/
def default : PWord := 0

/-- `color` (src/internal/rb_tree/node.rs:41-43, 129-131); `none` is the panic of `Color::from`. -/
def color (w : PWord) : Option Color := Color.ofU32 ((w &&& 1).setWidth 32)

/-- `ptr` (src/internal/rb_tree/node.rs:46-48). -/
def ptr (w : PWord) : BitVec 64 := w &&& ~~~1

/-- `_set_color` (src/internal/rb_tree/node.rs:55-57, 138-140). -/
def setColor (w : PWord) (c : Color) : PWord := (w &&& ~~~1) ||| c.word

/-- `_set_ptr` (src/internal/rb_tree/node.rs:64-66). -/
def setPtr (w : PWord) (p : BitVec 64) : PWord := (w &&& 1) ||| p

/-- `_new` (src/internal/rb_tree/node.rs:33-38). -/
def new (c : Color) (p : BitVec 64) : PWord := (default.setColor c).setPtr p

end PWord

end Verif
