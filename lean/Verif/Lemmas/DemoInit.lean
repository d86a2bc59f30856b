import Verif.Lemmas.Init
/-!
# The state after a plain start, written out

Only used to make the concrete examples cheap to check: `init0_eq` says that this is the state
`initServer` computes.
-/
set_option autoImplicit false
namespace Dax

def init0Db : List Tag :=
  [{ type := 21,
     attr := { readonly := true }, count := 1,
     name := some [0x5f#8, 0x74#8, 0x61#8, 0x67#8, 0x63#8, 0x6f#8, 0x75#8, 0x6e#8, 0x74#8], fd := -1, nextevent := 1, nextmap := 1, events := [], maps := [], wildMaps := false,
     data := Store.mem [0x0b#8, 0x00#8, 0x00#8, 0x00#8], ovr := none, retPtr := 0 },
   { type := 21,
     attr := { readonly := true }, count := 1,
     name := some [0x5f#8, 0x6c#8, 0x61#8, 0x73#8, 0x74#8, 0x69#8, 0x6e#8, 0x64#8, 0x65#8, 0x78#8], fd := -1, nextevent := 1, nextmap := 1, events := [], maps := [], wildMaps := false,
     data := Store.mem [0x0a#8, 0x00#8, 0x00#8, 0x00#8], ovr := none, retPtr := 0 },
   { type := 2147483649,
     attr := { readonly := true }, count := 1,
     name := some [0x5f#8, 0x74#8, 0x61#8, 0x67#8, 0x5f#8, 0x61#8, 0x64#8, 0x64#8, 0x65#8, 0x64#8], fd := -1, nextevent := 1, nextmap := 1, events := [], maps := [], wildMaps := false,
     data := Store.mem
               [0x0a#8,
                0x00#8,
                0x00#8,
                0x00#8,
                0x23#8,
                0x00#8,
                0x00#8,
                0x00#8,
                0x21#8,
                0x00#8,
                0x00#8,
                0x00#8,
                0x00#8,
                0x00#8,
                0x5f#8,
                0x6d#8,
                0x79#8,
                0x5f#8,
                0x74#8,
                0x61#8,
                0x67#8,
                0x6e#8,
                0x61#8,
                0x6d#8,
                0x65#8,
                0x00#8,
                0x00#8,
                0x00#8,
                0x00#8,
                0x00#8,
                0x00#8,
                0x00#8,
                0x00#8,
                0x00#8,
                0x00#8,
                0x00#8,
                0x00#8,
                0x00#8,
                0x00#8,
                0x00#8,
                0x00#8,
                0x00#8,
                0x00#8,
                0x00#8,
                0x00#8,
                0x00#8,
                0x00#8], ovr := none, retPtr := 0 },
   { type := 2147483649,
     attr := { readonly := true }, count := 1,
     name := some [0x5f#8, 0x74#8, 0x61#8, 0x67#8, 0x5f#8, 0x64#8, 0x65#8, 0x6c#8, 0x65#8, 0x74#8, 0x65#8, 0x64#8], fd := -1, nextevent := 1, nextmap := 1, events := [], maps := [], wildMaps := false,
     data := Store.mem
               [0x00#8,
                0x00#8,
                0x00#8,
                0x00#8,
                0x00#8,
                0x00#8,
                0x00#8,
                0x00#8,
                0x00#8,
                0x00#8,
                0x00#8,
                0x00#8,
                0x00#8,
                0x00#8,
                0x00#8,
                0x00#8,
                0x00#8,
                0x00#8,
                0x00#8,
                0x00#8,
                0x00#8,
                0x00#8,
                0x00#8,
                0x00#8,
                0x00#8,
                0x00#8,
                0x00#8,
                0x00#8,
                0x00#8,
                0x00#8,
                0x00#8,
                0x00#8,
                0x00#8,
                0x00#8,
                0x00#8,
                0x00#8,
                0x00#8,
                0x00#8,
                0x00#8,
                0x00#8,
                0x00#8,
                0x00#8,
                0x00#8,
                0x00#8,
                0x00#8,
                0x00#8,
                0x00#8], ovr := none, retPtr := 0 },
   { type := 21,
     attr := { readonly := true }, count := 1,
     name := some [0x5f#8, 0x64#8, 0x62#8, 0x73#8, 0x69#8, 0x7a#8, 0x65#8], fd := -1, nextevent := 1, nextmap := 1, events := [], maps := [], wildMaps := false,
     data := Store.mem [0x00#8, 0x04#8, 0x00#8, 0x00#8], ovr := none, retPtr := 0 },
   { type := 54,
     attr := { readonly := true }, count := 1,
     name := some [0x5f#8, 0x73#8, 0x74#8, 0x61#8, 0x72#8, 0x74#8, 0x74#8, 0x69#8, 0x6d#8, 0x65#8], fd := -1, nextevent := 1, nextmap := 1, events := [], maps := [], wildMaps := false,
     data := Store.mem [0x00#8, 0x00#8, 0x00#8, 0x00#8, 0x00#8, 0x00#8, 0x00#8, 0x00#8], ovr := none, retPtr := 0 },
   { type := 35,
     attr := { readonly := true }, count := 33,
     name := some [0x5f#8, 0x6c#8, 0x61#8, 0x73#8, 0x74#8, 0x6d#8, 0x6f#8, 0x64#8, 0x75#8, 0x6c#8, 0x65#8], fd := -1, nextevent := 1, nextmap := 1, events := [], maps := [], wildMaps := false,
     data := Store.mem
               [0x00#8,
                0x00#8,
                0x00#8,
                0x00#8,
                0x00#8,
                0x00#8,
                0x00#8,
                0x00#8,
                0x00#8,
                0x00#8,
                0x00#8,
                0x00#8,
                0x00#8,
                0x00#8,
                0x00#8,
                0x00#8,
                0x00#8,
                0x00#8,
                0x00#8,
                0x00#8,
                0x00#8,
                0x00#8,
                0x00#8,
                0x00#8,
                0x00#8,
                0x00#8,
                0x00#8,
                0x00#8,
                0x00#8,
                0x00#8,
                0x00#8,
                0x00#8,
                0x00#8], ovr := none, retPtr := 0 },
   { type := 21,
     attr := { readonly := true }, count := 1,
     name := some [0x5f#8,
              0x6f#8,
              0x76#8,
              0x65#8,
              0x72#8,
              0x72#8,
              0x69#8,
              0x64#8,
              0x65#8,
              0x73#8,
              0x5f#8,
              0x69#8,
              0x6e#8,
              0x73#8,
              0x74#8,
              0x61#8,
              0x6c#8,
              0x6c#8,
              0x65#8,
              0x64#8], fd := -1, nextevent := 1, nextmap := 1, events := [], maps := [], wildMaps := false,
     data := Store.mem [0x00#8, 0x00#8, 0x00#8, 0x00#8], ovr := none, retPtr := 0 },
   { type := 21,
     attr := { readonly := true }, count := 1,
     name := some [0x5f#8,
              0x6f#8,
              0x76#8,
              0x65#8,
              0x72#8,
              0x72#8,
              0x69#8,
              0x64#8,
              0x65#8,
              0x73#8,
              0x5f#8,
              0x73#8,
              0x65#8,
              0x74#8], fd := -1, nextevent := 1, nextmap := 1, events := [], maps := [], wildMaps := false,
     data := Store.mem [0x00#8, 0x00#8, 0x00#8, 0x00#8], ovr := none, retPtr := 0 },
   { type := 54,
     attr := { readonly := true,
               virt := true }, count := 1,
     name := some [0x5f#8, 0x74#8, 0x69#8, 0x6d#8, 0x65#8], fd := -1, nextevent := 1, nextmap := 1, events := [], maps := [], wildMaps := false,
     data := Store.vTime, ovr := none, retPtr := 0 },
   { type := 35,
     attr := { readonly := true,
               virt := true }, count := 33,
     name := some [0x5f#8, 0x6d#8, 0x79#8, 0x5f#8, 0x74#8, 0x61#8, 0x67#8, 0x6e#8, 0x61#8, 0x6d#8, 0x65#8], fd := -1, nextevent := 1, nextmap := 1, events := [], maps := [], wildMaps := false,
     data := Store.vMyName, ovr := none, retPtr := 0 }]

def init0Index : List IdxEnt :=
  [{ name := [0x5f#8, 0x64#8, 0x62#8, 0x73#8, 0x69#8, 0x7a#8, 0x65#8], tag := 4 },
   { name := [0x5f#8, 0x6c#8, 0x61#8, 0x73#8, 0x74#8, 0x69#8, 0x6e#8, 0x64#8, 0x65#8, 0x78#8], tag := 1 },
   { name := [0x5f#8, 0x6c#8, 0x61#8, 0x73#8, 0x74#8, 0x6d#8, 0x6f#8, 0x64#8, 0x75#8, 0x6c#8, 0x65#8], tag := 6 },
   { name := [0x5f#8, 0x6d#8, 0x79#8, 0x5f#8, 0x74#8, 0x61#8, 0x67#8, 0x6e#8, 0x61#8, 0x6d#8, 0x65#8], tag := 10 },
   { name := [0x5f#8,
              0x6f#8,
              0x76#8,
              0x65#8,
              0x72#8,
              0x72#8,
              0x69#8,
              0x64#8,
              0x65#8,
              0x73#8,
              0x5f#8,
              0x69#8,
              0x6e#8,
              0x73#8,
              0x74#8,
              0x61#8,
              0x6c#8,
              0x6c#8,
              0x65#8,
              0x64#8], tag := 7 },
   { name := [0x5f#8,
              0x6f#8,
              0x76#8,
              0x65#8,
              0x72#8,
              0x72#8,
              0x69#8,
              0x64#8,
              0x65#8,
              0x73#8,
              0x5f#8,
              0x73#8,
              0x65#8,
              0x74#8], tag := 8 },
   { name := [0x5f#8, 0x73#8, 0x74#8, 0x61#8, 0x72#8, 0x74#8, 0x74#8, 0x69#8, 0x6d#8, 0x65#8], tag := 5 },
   { name := [0x5f#8, 0x74#8, 0x61#8, 0x67#8, 0x5f#8, 0x61#8, 0x64#8, 0x64#8, 0x65#8, 0x64#8], tag := 2 },
   { name := [0x5f#8, 0x74#8, 0x61#8, 0x67#8, 0x5f#8, 0x64#8, 0x65#8, 0x6c#8, 0x65#8, 0x74#8, 0x65#8, 0x64#8], tag := 3 },
   { name := [0x5f#8, 0x74#8, 0x61#8, 0x67#8, 0x63#8, 0x6f#8, 0x75#8, 0x6e#8, 0x74#8], tag := 0 },
   { name := [0x5f#8, 0x74#8, 0x69#8, 0x6d#8, 0x65#8], tag := 9 }]

def init0Cdts : List Cdt :=
  [{ name := [0x5f#8, 0x6d#8, 0x6f#8, 0x64#8, 0x75#8, 0x6c#8, 0x65#8],
     members := [{ name := [0x73#8, 0x74#8, 0x61#8, 0x72#8, 0x74#8, 0x74#8, 0x69#8, 0x6d#8, 0x65#8], type := 54, count := 1 },
                 { name := [0x69#8, 0x64#8], type := 21, count := 1 },
                 { name := [0x72#8, 0x75#8, 0x6e#8, 0x6e#8, 0x69#8, 0x6e#8, 0x67#8], type := 16, count := 1 },
                 { name := [0x66#8, 0x61#8, 0x75#8, 0x6c#8, 0x74#8, 0x65#8, 0x64#8], type := 16, count := 1 },
                 { name := [0x73#8, 0x74#8, 0x61#8, 0x74#8, 0x75#8, 0x73#8], type := 35, count := 64 },
                 { name := [0x73#8, 0x74#8, 0x6f#8, 0x70#8], type := 16, count := 1 },
                 { name := [0x72#8, 0x75#8, 0x6e#8], type := 16, count := 1 },
                 { name := [0x72#8, 0x65#8, 0x6c#8, 0x6f#8, 0x61#8, 0x64#8], type := 16, count := 1 },
                 { name := [0x6b#8, 0x69#8, 0x6c#8, 0x6c#8], type := 16, count := 1 }],
     refcount := 0 },
   { name := [0x5f#8, 0x74#8, 0x61#8, 0x67#8, 0x5f#8, 0x64#8, 0x65#8, 0x73#8, 0x63#8],
     members := [{ name := [0x69#8, 0x6e#8, 0x64#8, 0x65#8, 0x78#8], type := 21, count := 1 },
                 { name := [0x74#8, 0x79#8, 0x70#8, 0x65#8], type := 37, count := 1 },
                 { name := [0x63#8, 0x6f#8, 0x75#8, 0x6e#8, 0x74#8], type := 37, count := 1 },
                 { name := [0x61#8, 0x74#8, 0x74#8, 0x72#8, 0x69#8, 0x62#8, 0x75#8, 0x74#8, 0x65#8, 0x73#8], type := 36, count := 1 },
                 { name := [0x6e#8, 0x61#8, 0x6d#8, 0x65#8], type := 35, count := 33 }],
     refcount := 2 }]

def init0 : Server :=
  { db := init0Db, index := init0Index, tagcount := 11, cdts := init0Cdts,
    modType := 2147483648 }

theorem init0_eq : initServer {} = .ok init0 := by kernel_rfl

end Dax
