import Verif.Model.PrintCall
import Verif.Model.Signature
import Verif.Conform.Sequence

/-!
# The repository's own tests of printing, carried out by the model

Transcribes the test cases of `/repo/test/unit-tests/Printer.cpp` 225-756 (76-104 are about concepts).
Regular expressions become the text that the model prints.
-/

set_option autoImplicit false

namespace Mimic.Conform

/-- 225-308: which printer is selected. -/
example : resolve ⟨true, false, false, false⟩ 4 = some .custom ∧ resolve ⟨false, true, false, false⟩ 4 = some .internal ∧
    resolve ⟨true, true, false, false⟩ 4 = some .custom ∧ resolve ⟨false, false, false, true⟩ 4 = some .format ∧
    resolve ⟨true, false, false, true⟩ 4 = some .custom := by decide +kernel

/-- 310-348: strings. -/
example : value (print (.string [])) = some (lit "\"\"") ∧
    value (print (.string (lit "Hello, World!"))) = some (lit "\"Hello, World!\"") := by decide +kernel

/-- 350-398: ranges. -/
example : value (print (.range [])) = some (lit "{  }") ∧ value (print (.range [.int 42])) = some (lit "{ 42 }") ∧
    value (print (.range [.int 42, .int 1337])) = some (lit "{ 42, 1337 }") ∧
    value (print (.range [.unknown, .unknown, .unknown])) = some (lit "{ {?}, {?}, {?} }") ∧
    value (print (.range [.int 84, .int 2674])) = some (lit "{ 84, 2674 }") := by decide +kernel

/-- 400-407: source locations. -/
example : value (print (.location (lit "main.cpp") 42 1337 (lit "main"))) = some (lit "main.cpp[42:1337], main") := by decide +kernel

/-- 409-426: optionals. -/
example : value (print .nullopt) = some (lit "nullopt") ∧ value (print (.optional none)) = some (lit "nullopt") ∧
    value (print (.optional (some (.int 1337)))) = some (lit "{ value: 1337 }") ∧
    value (print (.optional (some .unknown))) = some (lit "{ value: {?} }") := by decide +kernel

/-- 428-439: tuples. -/
example : value (print (.tuple [])) = some (lit "{  }") ∧ value (print (.tuple [.int 1337])) = some (lit "{ 1337 }") ∧
    value (print (.tuple [.unknown, .int 1337])) = some (lit "{ {?}, 1337 }") := by decide +kernel

/-- 441-455: pointers. -/
example : value (print (.pointer 0)) = some (lit "0x0000000000000000") ∧
    value (print (.pointer 0x1234567890ABCDEF)) = some (lit "0x1234567890abcdef") ∧
    value (print (.pointer 0x1234)) = some (lit "0x0000000000001234") := by decide +kernel

/-- 457-465, 559-580: the token for everything else, and temporaries. -/
example : value (print .unknown) = some (lit "{?}") ∧ value (print (.int 42)) = some (lit "42") := by decide +kernel

/-- 516-557: strings of characters that print themselves, and strings that are no ranges of characters. -/
example : value (print (.custom (lit "A"))) = some (lit "A") ∧
    value (print (.chars [] [lit "A", lit "b", lit "C"])) = some (lit "\"AbC\"") ∧
    value (print (.string (lit "AbC"))) = some (lit "\"AbC\"") := by decide +kernel

/-- 582-660: `ValueCategory` and `Constness`. -/
example : [ValueCategory.any, .rvalue, .lvalue].map (·.word) = ["any", "rvalue", "lvalue"] ∧
    [Constness.any, .asConst, .nonConst].map (·.word) = ["any", "const", "mutable"] := by decide +kernel

/-- 662-756: strings of `wchar_t`, `char8_t`, `char16_t` and `char32_t`. -/
example : ∀ p ∈ [lit "L", lit "u8", lit "u", lit "U"],
    ∀ x ∈ [([], []), ([0x48, 0x65, 0x2c, 0x20, 0x6c, 0x6c, 0x6f], lit "0x48, 0x65, 0x2c, 0x20, 0x6c, 0x6c, 0x6f"),
      ([0x20, 0x48, 0x65, 0x2c, 0x20, 0x6c, 0x6c, 0x6f, 0x20], lit "0x20, 0x48, 0x65, 0x2c, 0x20, 0x6c, 0x6c, 0x6f, 0x20")],
    ∀ v ∈ [Val.wide p x.1, .cwide p (.text x.1)],
    value (print v) = some (p ++ lit "\"" ++ x.2 ++ lit "\"") := by decide +kernel

end Mimic.Conform
