import Verif.Model.Service
/-!
# The repository's unit tests of `ush_utils.c` replayed on the model (tests/unit_tests/test_unit_utils.c)
-/
namespace Ush.Test
open Ush

#guard pathLevelsCount b!"" = 0
#guard pathLevelsCount b!"/" = 0
#guard pathLevelsCount b!" /" = 2
#guard pathLevelsCount b!" / " = 2
#guard pathLevelsCount b!"test" = 1
#guard pathLevelsCount b!"test/" = 2
#guard pathLevelsCount b!"test/abc" = 2
#guard pathLevelsCount b!"test/abc/" = 3
#guard pathLevelsCount b!"/test" = 1
#guard pathLevelsCount b!"/test/" = 2
#guard pathLevelsCount b!"/test/abc" = 2
#guard pathLevelsCount b!"/test/abc/" = 3
#guard pathLevelsCount b!"/test/../qwerty" = 3
#guard pathLevelsCount b!"/test/../qwerty/" = 4
#guard pathLevelsCount b!"/test/../qwerty" = 3
#guard pathLevelsCount b!"/test/../qwerty/" = 4
#guard collapsePath 128 b!"" = .error .vla  -- zero-length VLA; the C test expects "/"
#guard collapsePath 128 b!"/" = .ok b!"/"
#guard collapsePath 128 b!"test" = .ok b!"/"
#guard collapsePath 128 b!"test/" = .ok b!"/"
#guard collapsePath 128 b!"/test" = .ok b!"/test"
#guard collapsePath 128 b!"/test/" = .ok b!"/test/"
#guard collapsePath 128 b!"test/abc" = .ok b!"/abc"
#guard collapsePath 128 b!"test/abc/" = .ok b!"/abc/"
#guard collapsePath 128 b!"/test/abc" = .ok b!"/test/abc"
#guard collapsePath 128 b!"/test/abc/" = .ok b!"/test/abc/"
#guard collapsePath 128 b!"../test" = .ok b!"/test"
#guard collapsePath 128 b!"/../test" = .ok b!"/test"
#guard collapsePath 128 b!"/test/.." = .ok b!"/"
#guard collapsePath 128 b!"../test/.." = .ok b!"/"
#guard collapsePath 128 b!"../test/../" = .ok b!"/"
#guard collapsePath 128 b!"../test/../abc" = .ok b!"/abc"
#guard collapsePath 128 b!"../test/../abc/" = .ok b!"/abc/"
#guard collapsePath 128 b!"./" = .ok b!"/"
#guard collapsePath 128 b!"./test" = .ok b!"/test"
#guard collapsePath 128 b!"/test/./abc" = .ok b!"/test/abc"
#guard collapsePath 128 b!"/test//" = .ok b!"/test//"
#guard collapsePath 128 b!"/test//abc" = .ok b!"/test//abc"
#guard collapsePath 128 b!"/test///abc" = .ok b!"/test///abc"
#guard collapsePath 128 b!"//" = .ok b!"//"
#guard collapsePath 128 b!"///test" = .ok b!"///test"
#guard pathUpper b!"" = b!""
#guard pathUpper b!"/" = b!""
#guard pathUpper b!"/test" = b!"/"
#guard pathUpper b!"/test/" = b!"/test"
#guard pathUpper b!"test" = b!"test"
#guard pathUpper b!"test/" = b!"test"
#guard pathUpper b!"test/abc" = b!"test"
#guard pathUpper b!"test/abc/xyz" = b!"test/abc"
#guard pathUpper b!"/test/abc" = b!"/test"
#guard pathUpper b!"/test/abc/" = b!"/test/abc"
#guard pathUpper b!"/test/abc/qwerty" = b!"/test/abc"
#guard pathLast b!"" = b!""
#guard pathLast b!"/" = b!"/"
#guard pathLast b!"/test" = b!"test"
#guard pathLast b!"test/" = b!""
#guard pathLast b!"test/abc" = b!"abc"
#guard pathLast b!"/test/abc" = b!"abc"
#guard pathLast b!"xyz/test/abc" = b!"abc"
#guard pathLast b!"/test/abc/qwerty" = b!"qwerty"
#guard pathLast b!"xyz/test/abc/" = b!""
#guard pathLevel 128 0 b!"" = .ok b!"/"
#guard pathLevel 128 1 b!"" = .ok b!""
#guard pathLevel 128 2 b!"" = .ok b!""
#guard pathLevel 128 0 b!"test" = .ok b!"/"
#guard pathLevel 128 1 b!"test" = .ok b!"test"
#guard pathLevel 128 2 b!"test" = .ok b!"test"
#guard pathLevel 128 0 b!"test/" = .ok b!"/"
#guard pathLevel 128 1 b!"test/" = .ok b!"test"
#guard pathLevel 128 2 b!"test/" = .ok b!"test/"
#guard pathLevel 128 0 b!"test/abc" = .ok b!"/"
#guard pathLevel 128 1 b!"test/abc" = .ok b!"test"
#guard pathLevel 128 2 b!"test/abc" = .ok b!"test/abc"
#guard pathLevel 128 0 b!"test/abc/" = .ok b!"/"
#guard pathLevel 128 1 b!"test/abc/" = .ok b!"test"
#guard pathLevel 128 2 b!"test/abc/" = .ok b!"test/abc"
#guard pathLevel 128 0 b!"/test" = .ok b!"/"
#guard pathLevel 128 1 b!"/test" = .ok b!"/test"
#guard pathLevel 128 2 b!"/test" = .ok b!"/test"
#guard pathLevel 128 0 b!"/test/" = .ok b!"/"
#guard pathLevel 128 1 b!"/test/" = .ok b!"/test"
#guard pathLevel 128 2 b!"/test/" = .ok b!"/test/"
#guard pathLevel 128 0 b!"/test/abc" = .ok b!"/"
#guard pathLevel 128 1 b!"/test/abc" = .ok b!"/test"
#guard pathLevel 128 2 b!"/test/abc" = .ok b!"/test/abc"
#guard pathLevel 128 0 b!"/test/abc/" = .ok b!"/"
#guard pathLevel 128 1 b!"/test/abc/" = .ok b!"/test"
#guard pathLevel 128 2 b!"/test/abc/" = .ok b!"/test/abc"
#guard joinPath 128 b!"" b!"" = .ok b!"/"
#guard joinPath 128 b!"" b!"/" = .ok b!"//"
#guard joinPath 128 b!"" b!"/test" = .ok b!"//test"
#guard joinPath 128 b!"" b!"test" = .ok b!"/test"
#guard joinPath 128 b!"/" b!"" = .ok b!"/"
#guard joinPath 128 b!"/" b!"abc" = .ok b!"/abc"
#guard joinPath 128 b!"/" b!"/abc" = .ok b!"//abc"
#guard joinPath 128 b!"/" b!"abc/" = .ok b!"/abc/"
#guard joinPath 128 b!"/test" b!"" = .ok b!"/test/"
#guard joinPath 128 b!"test" b!"" = .ok b!"test/"
#guard joinPath 128 b!"/test" b!"abc" = .ok b!"/test/abc"
#guard joinPath 128 b!"/test" b!"/abc" = .ok b!"/test//abc"
#guard joinPath 128 b!"/test/" b!"abc" = .ok b!"/test//abc"
#guard (b!"").drop (lastArgOff b!"") = b!""
#guard (b!"   ").drop (lastArgOff b!"   ") = b!""
#guard (b!"test").drop (lastArgOff b!"test") = b!"test"
#guard (b!"   test").drop (lastArgOff b!"   test") = b!"test"
#guard (b!"test ").drop (lastArgOff b!"test ") = b!""
#guard (b!"test abc").drop (lastArgOff b!"test abc") = b!"abc"
#guard (b!"test    abc").drop (lastArgOff b!"test    abc") = b!"abc"
#guard (b!"test    abc  ").drop (lastArgOff b!"test    abc  ") = b!""
#guard (b!"test abc xyz").drop (lastArgOff b!"test abc xyz") = b!"xyz"
#guard (b!"test abc xyz   ").drop (lastArgOff b!"test abc xyz   ") = b!""
#guard startsWith b!"test" b!"" = true
#guard startsWith b!"test" b!"te" = true
#guard startsWith b!"test" b!"test" = true
#guard startsWith b!"test" b!"test/" = false
#guard startsWith b!"" b!"" = true
#guard startsWith b!"" b!"te" = false
#guard startsWith b!"" b!"test" = false
#guard startsWith b!" test" b!"test" = false
#guard startsWith b!"test" b!" test" = false
#guard (List.range 256).all (fun i => isPrintable (UInt8.ofNat i) = (decide (0x20 ≤ i) && decide (i ≤ 0x7E)))
#guard decodeAscii b!"abc" 8 = b!"abc"
#guard decodeAscii b!"\\a\\b\\c" 8 = b!"abc"
#guard decodeAscii b!"\\x01a\\xFF" 8 = [1, 97, 255]
#guard decodeAscii b!"abcd\\x00\\x01\\x02\\x03" 8 = b!"abcd" ++ [0, 1, 2, 3]
#guard decodeAscii b!"\\xde\\xad\\xbe\\xef" 8 = [0xde, 0xad, 0xbe, 0xef]
#guard decodeAscii b!"abcdqwertyuiop" 8 = b!"abcdqwer"

end Ush.Test
