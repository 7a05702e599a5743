import Verif.Cache.Group
/-!
# Making view objects (`pkg/object/object.go`)
-/
set_option autoImplicit false
namespace Dctl

/-- `pkg/object/object.go:44-49` `NewViewObject`. -/
def newViewObject (op view : String) : SMap Json := setGVK [] (viewGVK op view)

/-- `pkg/object/object.go:52-64` `NewViewObjectFromNativeObject`; the native object is given by its unstructured content, the conversion (`:55`) is the one of
the library and never fails here. `GetNamespace` and `GetName` of the native object are those of its content. -/
def viewObjectFromNative (op view : String) (native : SMap Json) : SMap Json :=
  setContent (setName (newViewObject op view) (objKey native).1 (objKey native).2) native

end Dctl
